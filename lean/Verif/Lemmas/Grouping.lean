import Verif.Lemmas.Where

/-!
# Lexing and parsing the text of a condition
-/

namespace Verif.Spec

variable {V : Type}

/-- Text starting at a word boundary. -/
def Boundary : List (BSym V) → Prop
  | [] => True
  | .val _ :: _ => True
  | .ch c :: _ => c = ' ' ∨ c = '(' ∨ c = ')' ∨ c = ','

theorem lex_boundary (w : List Char) (t : List (BSym V)) (h : Boundary t) :
    lexFrom w t = flush w ++ lexFrom [] t := by
  match t, h with
  | [], _ => simp [lexFrom, flush]
  | .val v :: t, _ => simp [lexFrom, flush]
  | .ch c :: t, h => rcases h with rfl | rfl | rfl | rfl <;> simp [lexFrom, flush]

theorem lex_name (n : String) (h : SimpleName n) (t : List (BSym V)) (ht : Boundary t) :
    lexFrom [] (bs n ++ t) = .word n.toList :: lexFrom [] t := by
  have key : ∀ (l w : List Char), (∀ c ∈ l, c ≠ ' ' ∧ c ≠ '(' ∧ c ≠ ')' ∧ c ≠ ',') →
      lexFrom w (l.map BSym.ch ++ t) = lexFrom (w ++ l) t := by
    intro l
    induction l with
    | nil => intro w _; simp
    | cons c l ih =>
      intro w hl
      obtain ⟨h1, h2, h3, h4⟩ := hl c (by simp)
      simp only [List.map_cons, List.cons_append]
      rw [lexFrom, if_neg h1, if_neg h2, if_neg h3, if_neg h4, ih _ (fun x hx => hl x (by simp [hx]))]
      simp
  rw [bs, key _ _ h.1.2, lex_boundary _ _ ht]
  simp [flush, h.1.1]

/-- Words of a keyword string. -/
macro "lexkw" : tactic =>
  `(tactic| (simp [bs, lexFrom, flush, kw]))

theorem lex_and (t : List (BSym V)) : lexFrom [] (bs " AND " ++ t) = .word (kw "AND") :: lexFrom [] t := by lexkw
theorem lex_or (t : List (BSym V)) : lexFrom [] (bs " OR " ++ t) = .word (kw "OR") :: lexFrom [] t := by lexkw
theorem lex_in (t : List (BSym V)) : lexFrom [] (bs " IN " ++ t) = .word (kw "IN") :: lexFrom [] t := by lexkw
theorem lex_notin (t : List (BSym V)) :
    lexFrom [] (bs " NOT IN " ++ t) = .word (kw "NOT") :: .word (kw "IN") :: lexFrom [] t := by lexkw
theorem lex_between (t : List (BSym V)) :
    lexFrom [] (bs " BETWEEN " ++ t) = .word (kw "BETWEEN") :: lexFrom [] t := by lexkw
theorem lex_notbetween (t : List (BSym V)) :
    lexFrom [] (bs " NOT BETWEEN " ++ t) = .word (kw "NOT") :: .word (kw "BETWEEN") :: lexFrom [] t := by lexkw
theorem lex_isnull (t : List (BSym V)) (h : Boundary t) :
    lexFrom [] (bs " IS NULL" ++ t) = .word (kw "IS") :: .word (kw "NULL") :: lexFrom [] t := by
  have : lexFrom [] (bs " IS NULL" ++ t) = .word (kw "IS") :: lexFrom (kw "NULL") t := by lexkw
  rw [this, lex_boundary _ t h]; simp [flush, kw]
theorem lex_isnotnull (t : List (BSym V)) (h : Boundary t) :
    lexFrom [] (bs " IS NOT NULL" ++ t) =
      .word (kw "IS") :: .word (kw "NOT") :: .word (kw "NULL") :: lexFrom [] t := by
  have : lexFrom [] (bs " IS NOT NULL" ++ t) =
      .word (kw "IS") :: .word (kw "NOT") :: lexFrom (kw "NULL") t := by lexkw
  rw [this, lex_boundary _ t h]; simp [flush, kw]
theorem lex_lp (t : List (BSym V)) : lexFrom [] (bs "(" ++ t) = .lp :: lexFrom [] t := by lexkw
theorem lex_rp (t : List (BSym V)) : lexFrom [] (bs ")" ++ t) = .rp :: lexFrom [] t := by lexkw
theorem lex_comma (t : List (BSym V)) : lexFrom [] (bs "," ++ t) = .comma :: lexFrom [] t := by lexkw
theorem lex_val (v : V) (t : List (BSym V)) : lexFrom [] (.val v :: t) = .val v :: lexFrom [] t := by
  simp [lexFrom, flush]

/-- Words of an operator. -/
def opWords : Op → List (WTok V)
  | .eq => [.word (kw "=")] | .ne => [.word (kw "<>")] | .gt => [.word (kw ">")]
  | .ge => [.word (kw ">=")] | .lt => [.word (kw "<")] | .le => [.word (kw "<=")]
  | .like => [.word (kw "LIKE")] | .notLike => [.word (kw "NOT"), .word (kw "LIKE")]

theorem lex_op (op : Op) (t : List (BSym V)) :
    lexFrom [] (bs (opText op) ++ t) = opWords op ++ lexFrom [] t := by
  cases op <;> simp [opText, opWords, bs, lexFrom, flush, kw]

theorem boundary_op (op : Op) (t : List (BSym V)) : Boundary (bs (opText op) ++ t) := by
  cases op <;> simp [opText, bs, Boundary]

/-- Tokens of a value list. -/
def valToks : List V → List (WTok V)
  | [] => []
  | [v] => [.val v]
  | v :: w :: r => .val v :: .comma :: valToks (w :: r)

theorem lex_vals (vs : List V) (t : List (BSym V)) :
    lexFrom [] (commaVals vs ++ t) = valToks vs ++ lexFrom [] t := by
  induction vs with
  | nil => simp [commaVals, List.intercalate, valToks]
  | cons v vs ih =>
    cases vs with
    | nil => simp [commaVals, List.intercalate, valToks, lex_val]
    | cons w r =>
      rw [commaVals_cons]
      simp only [List.cons_append, List.append_assoc]
      rw [lex_val, lex_comma, ih]
      simp [valToks]

theorem lex_tuple (vs : List V) (t : List (BSym V)) :
    lexFrom [] (tuple vs ++ t) = .lp :: valToks vs ++ .rp :: lexFrom [] t := by
  have e : tuple vs = bs "(" ++ commaVals vs ++ bs ")" := rfl
  rw [e]
  simp only [List.append_assoc]
  rw [lex_lp, lex_vals, lex_rp]
  simp

/-- Tokens joined by a keyword, each preceded by it. -/
def restToks (k : String) (xs : List (List (WTok V))) : List (WTok V) :=
  xs.flatMap fun x => .word (kw k) :: x

/-- Tokens of a group. -/
def groupToks (k : String) : List (List (WTok V)) → List (WTok V)
  | [] => []
  | x :: xs => .lp :: x ++ restToks k xs ++ [.rp]

mutual
def toks : Clause V → List (WTok V)
  | .and cs => groupToks "AND" (toksL cs)
  | .or cs => groupToks "OR" (toksL cs)
  | .cmp op c v => .word c.name.toList :: opWords op ++ [.val (c.conv v)]
  | .isIn false c vs => .word c.name.toList :: .word (kw "IN") :: .lp :: valToks (vs.map c.conv) ++ [.rp]
  | .isIn true c vs =>
    .word c.name.toList :: .word (kw "NOT") :: .word (kw "IN") :: .lp :: valToks (vs.map c.conv) ++ [.rp]
  | .null false c => [.word c.name.toList, .word (kw "IS"), .word (kw "NULL")]
  | .null true c => [.word c.name.toList, .word (kw "IS"), .word (kw "NOT"), .word (kw "NULL")]
  | .between false c a b => [.word c.name.toList, .word (kw "BETWEEN"), .val (c.conv a),
      .word (kw "AND"), .val (c.conv b)]
  | .between true c a b => [.word c.name.toList, .word (kw "NOT"), .word (kw "BETWEEN"),
      .val (c.conv a), .word (kw "AND"), .val (c.conv b)]
def toksL : List (Clause V) → List (List (WTok V))
  | [] => []
  | c :: cs => toks c :: toksL cs
end

theorem boundary_sp (sep : String) (h : sep.toList.head? = some ' ') (t : List (BSym V)) :
    Boundary (bs sep ++ t) := by
  cases hs : sep.toList with
  | nil => simp [hs] at h
  | cons c l =>
    have : c = ' ' := by simpa [hs] using h
    subst this
    simp [bs, hs, Boundary]

theorem boundary_rest (sep : String) (h : sep.toList.head? = some ' ') (xs : List (List (BSym V)))
    (t : List (BSym V)) (ht : Boundary t) : Boundary (restText sep xs ++ t) := by
  cases xs with
  | nil => simpa [restText] using ht
  | cons x xs =>
    cases hs : sep.toList with
    | nil => simp [hs] at h
    | cons c l =>
      have : c = ' ' := by simpa [hs] using h
      subst this
      simp [restText, bs, hs, Boundary]

mutual
theorem lex_meaning : (c : Clause V) → WellFormed c → (t : List (BSym V)) → Boundary t →
    lexFrom [] (meaning c ++ t) = toks c ++ lexFrom [] t
  | .and cs, h, t, ht => by
    rw [meaning, toks, meanings_eq]
    exact lex_group " AND " "AND" rfl lex_and cs h.1 h.2 t ht
  | .or cs, h, t, ht => by
    rw [meaning, toks, meanings_eq]
    exact lex_group " OR " "OR" rfl lex_or cs h.1 h.2 t ht
  | .cmp op c v, h, t, ht => by
    simp only [meaning, toks, List.append_assoc]
    rw [lex_name _ h _ (boundary_op _ _), lex_op]
    simp [lex_val]
  | .isIn neg c vs, h, t, ht => by
    cases neg <;> simp only [meaning, toks, List.append_assoc]
    · rw [lex_name _ h.1 _ (boundary_sp _ rfl _), lex_in, lex_tuple]; simp
    · rw [lex_name _ h.1 _ (boundary_sp _ rfl _), lex_notin, lex_tuple]; simp
  | .null neg c, h, t, ht => by
    cases neg <;> simp only [meaning, toks, List.append_assoc]
    · rw [lex_name _ h _ (boundary_sp _ rfl _), lex_isnull _ ht]; simp
    · rw [lex_name _ h _ (boundary_sp _ rfl _), lex_isnotnull _ ht]; simp
  | .between neg c a b, h, t, ht => by
    cases neg <;> simp only [meaning, toks, List.append_assoc]
    · rw [lex_name _ h _ (boundary_sp _ rfl _), lex_between]
      simp only [List.cons_append, List.nil_append]
      rw [lex_val, lex_and, lex_val]
    · rw [lex_name _ h _ (boundary_sp _ rfl _), lex_notbetween]
      simp only [List.cons_append, List.nil_append]
      rw [lex_val, lex_and, lex_val]

theorem lex_group (sep k : String) (hsep : sep.toList.head? = some ' ')
    (hlex : ∀ t : List (BSym V), lexFrom [] (bs sep ++ t) = .word (kw k) :: lexFrom [] t) :
    (cs : List (Clause V)) → cs ≠ [] → AllWF cs → (t : List (BSym V)) → Boundary t →
    lexFrom [] (paren sep (cs.map meaning) ++ t) = groupToks k (toksL cs) ++ lexFrom [] t
  | [], hne, h, t, ht => absurd rfl hne
  | c :: cs, hne, h, t, ht => by
    simp only [List.map_cons, paren]
    rw [intercalate_restText]
    simp only [List.append_assoc, toksL, groupToks]
    have hb : Boundary (bs ")" ++ t) := by simp [bs, Boundary]
    rw [lex_lp, lex_meaning c h.1 _ (boundary_rest sep hsep _ _ hb),
      lex_rest sep k hsep hlex cs h.2 _ hb, lex_rp]
    simp

theorem lex_rest (sep k : String) (hsep : sep.toList.head? = some ' ')
    (hlex : ∀ t : List (BSym V), lexFrom [] (bs sep ++ t) = .word (kw k) :: lexFrom [] t) :
    (cs : List (Clause V)) → AllWF cs → (t : List (BSym V)) → Boundary t →
    lexFrom [] (restText sep (cs.map meaning) ++ t) = restToks k (toksL cs) ++ lexFrom [] t
  | [], h, t, ht => by simp [restText, restToks, toksL]
  | c :: cs, h, t, ht => by
    simp only [List.map_cons, restText, toksL, restToks, List.flatMap_cons, List.append_assoc]
    rw [hlex]
    have := lex_meaning c h.1 _ (boundary_rest sep hsep (cs.map meaning) t ht)
    simp only [restText] at this
    rw [this]
    have := lex_rest sep k hsep hlex cs h.2 t ht
    simp only [restText] at this
    rw [this]
    simp [restToks]
end

/-! ### Parsing -/

mutual
/-- The tree that the parser finds. -/
def astOf : Clause V → Ast V
  | .and [] => .pred (.null false [])
  | .and (c :: cs) => andAst (astOf c) (astL cs)
  | .or [] => .pred (.null false [])
  | .or (c :: cs) => orAst (astOf c) (astL cs)
  | .cmp op c v => .pred (opPred op c.name.toList (c.conv v))
  | .isIn neg c vs => .pred (.isIn neg c.name.toList (vs.map c.conv))
  | .null neg c => .pred (.null neg c.name.toList)
  | .between neg c a b => .pred (.between neg c.name.toList (c.conv a) (c.conv b))
def astL : List (Clause V) → List (Ast V)
  | [] => []
  | c :: cs => astOf c :: astL cs
def andAst (a : Ast V) : List (Ast V) → Ast V
  | [] => a
  | b :: r => .and a (andAst b r)
def orAst (a : Ast V) : List (Ast V) → Ast V
  | [] => a
  | b :: r => .or a (orAst b r)
end

theorem pVals_toks (vs : List V) (h : vs ≠ []) (r : List (WTok V)) :
    pVals (valToks vs ++ .rp :: r) = some (vs, r) := by
  induction vs with
  | nil => exact absurd rfl h
  | cons v vs ih =>
    cases vs with
    | nil => simp [valToks, pVals]
    | cons w ws =>
      have := ih (by simp)
      simp only [valToks, List.cons_append, pVals, this, Option.map_some]

theorem pPred_cmp (op : Op) (c : List Char) (hc : c ∉ reserved) (v : V) (r : List (WTok V)) :
    pPred (.word c :: opWords op ++ .val v :: r) = some (opPred op c v, r) := by
  cases op <;> simp [opWords, pPred, hc, pTail, kw, opPred]

theorem pPred_in (c : List Char) (hc : c ∉ reserved) (vs : List V) (h : vs ≠ []) (r : List (WTok V)) :
    pPred (.word c :: .word (kw "IN") :: .lp :: (valToks vs ++ .rp :: r)) =
      some (.isIn false c vs, r) := by
  simp [pPred, hc, pTail, kw, pVals_toks vs h r]

theorem pPred_notin (c : List Char) (hc : c ∉ reserved) (vs : List V) (h : vs ≠ []) (r : List (WTok V)) :
    pPred (.word c :: .word (kw "NOT") :: .word (kw "IN") :: .lp :: (valToks vs ++ .rp :: r)) =
      some (.isIn true c vs, r) := by
  simp [pPred, hc, pTail, kw, pVals_toks vs h r]

theorem pPrim_pred (n : Nat) (c : List Char) (ts : List (WTok V)) (p : Pred V) (r : List (WTok V))
    (h : pPred (.word c :: ts) = some (p, r)) :
    pPrim (n + 1) (.word c :: ts) = some (.pred p, r) := by
  rw [pPrim, h]
  · rfl
  · intro r h; cases h

theorem restToks_cons (k : String) (x : List (WTok V)) (xs : List (List (WTok V))) :
    restToks k (x :: xs) = .word (kw k) :: (x ++ restToks k xs) := by simp [restToks]

theorem toks_length_pos : (c : Clause V) → WellFormed c → 0 < (toks c).length
  | .and (c :: cs), h => by simp [toks, toksL, groupToks]
  | .or (c :: cs), h => by simp [toks, toksL, groupToks]
  | .and [], h => absurd rfl h.1
  | .or [], h => absurd rfl h.1
  | .cmp op c v, h => by simp [toks]
  | .isIn neg c vs, h => by cases neg <;> simp [toks]
  | .null neg c, h => by cases neg <;> simp [toks]
  | .between neg c a b, h => by cases neg <;> simp [toks]

mutual
theorem pPrim_toks : (c : Clause V) → WellFormed c → (r : List (WTok V)) → (n : Nat) →
    3 * (toks c).length ≤ n → pPrim n (toks c ++ r) = some (astOf c, r)
  | .and [], h, r, n, hn => absurd rfl h.1
  | .or [], h, r, n, hn => absurd rfl h.1
  | .and (c :: cs), h, r, n, hn => by
    simp only [toks, toksL, groupToks] at hn ⊢
    obtain ⟨m, rfl⟩ : ∃ m, n = m + 2 := ⟨n - 2, by simp at hn; omega⟩
    have hlen := pAnd_toks c h.2.1 cs h.2.2 r m (by simp at hn ⊢; omega)
    have e : (.lp :: toks c ++ restToks "AND" (toksL cs) ++ [.rp] ++ r : List (WTok V)) =
        .lp :: (toks c ++ (restToks "AND" (toksL cs) ++ .rp :: r)) := by simp
    rw [e, pPrim, pOr, hlen]
    simp [astOf]
  | .or (c :: cs), h, r, n, hn => by
    simp only [toks, toksL, groupToks] at hn ⊢
    obtain ⟨m, rfl⟩ : ∃ m, n = m + 1 := ⟨n - 1, by simp at hn; omega⟩
    have hlen := pOr_toks c h.2.1 cs h.2.2 r m (by simp at hn ⊢; omega)
    have e : (.lp :: toks c ++ restToks "OR" (toksL cs) ++ [.rp] ++ r : List (WTok V)) =
        .lp :: (toks c ++ (restToks "OR" (toksL cs) ++ .rp :: r)) := by simp
    rw [e, pPrim, hlen]
    simp [astOf]
  | .cmp op c v, h, r, n, hn => by
    obtain ⟨m, rfl⟩ : ∃ m, n = m + 1 := ⟨n - 1, by simp [toks] at hn; omega⟩
    have e : toks (.cmp op c v) ++ r = .word c.name.toList :: (opWords op ++ .val (c.conv v) :: r) := by
      simp [toks]
    rw [e, astOf]
    exact pPrim_pred _ _ _ _ _ (pPred_cmp op _ h.2 _ _)
  | .isIn neg c vs, h, r, n, hn => by
    obtain ⟨m, rfl⟩ : ∃ m, n = m + 1 := ⟨n - 1, by cases neg <;> simp [toks] at hn <;> omega⟩
    have hv : vs.map c.conv ≠ [] := by simpa using h.2
    cases neg
    · have e : toks (.isIn false c vs) ++ r = .word c.name.toList :: .word (kw "IN") :: .lp ::
          (valToks (vs.map c.conv) ++ .rp :: r) := by simp [toks]
      rw [e, astOf]
      exact pPrim_pred _ _ _ _ _ (pPred_in _ h.1.2 _ hv _)
    · have e : toks (.isIn true c vs) ++ r = .word c.name.toList :: .word (kw "NOT") ::
          .word (kw "IN") :: .lp :: (valToks (vs.map c.conv) ++ .rp :: r) := by simp [toks]
      rw [e, astOf]
      exact pPrim_pred _ _ _ _ _ (pPred_notin _ h.1.2 _ hv _)
  | .null neg c, h, r, n, hn => by
    obtain ⟨m, rfl⟩ : ∃ m, n = m + 1 := ⟨n - 1, by cases neg <;> simp [toks] at hn <;> omega⟩
    rw [astOf]
    cases neg
    · exact pPrim_pred _ _ _ _ _ (by simp [pPred, show c.name.toList ∉ reserved from h.2, kw])
    · exact pPrim_pred _ _ _ _ _ (by simp [pPred, show c.name.toList ∉ reserved from h.2, kw])
  | .between neg c a b, h, r, n, hn => by
    obtain ⟨m, rfl⟩ : ∃ m, n = m + 1 := ⟨n - 1, by cases neg <;> simp [toks] at hn <;> omega⟩
    rw [astOf]
    cases neg
    · exact pPrim_pred _ _ _ _ _ (by simp [pPred, show c.name.toList ∉ reserved from h.2, pTail, kw])
    · exact pPrim_pred _ _ _ _ _ (by simp [pPred, show c.name.toList ∉ reserved from h.2, pTail, kw])
termination_by c => sizeOf c
decreasing_by all_goals (simp; try omega)

theorem pAnd_toks : (c : Clause V) → WellFormed c → (cs : List (Clause V)) → AllWF cs →
    (r : List (WTok V)) → (n : Nat) → 3 * (toks c ++ restToks "AND" (toksL cs)).length + 1 ≤ n →
    pAnd n (toks c ++ (restToks "AND" (toksL cs) ++ .rp :: r)) =
      some (andAst (astOf c) (astL cs), .rp :: r)
  | c, h, [], hs, r, n, hn => by
    obtain ⟨m, rfl⟩ : ∃ m, n = m + 1 := ⟨n - 1, by omega⟩
    rw [pAnd, toksL, restToks, List.flatMap_nil, List.nil_append,
      pPrim_toks c h _ _ (by simp at hn; omega)]
    simp [astL, andAst]
  | c, h, d :: ds, hs, r, n, hn => by
    obtain ⟨m, rfl⟩ : ∃ m, n = m + 1 := ⟨n - 1, by omega⟩
    have hc := toks_length_pos c h
    rw [toksL, restToks_cons] at hn ⊢
    simp only [List.cons_append, List.append_assoc]
    rw [pAnd, pPrim_toks c h _ _ (by simp at hn; omega)]
    simp only [if_true]
    rw [pAnd_toks d hs.1 ds hs.2 r m (by simp at hn ⊢; omega)]
    simp [astL, andAst]
termination_by c _ cs => sizeOf c + sizeOf cs
decreasing_by all_goals (simp; try omega)

theorem pOr_toks : (c : Clause V) → WellFormed c → (cs : List (Clause V)) → AllWF cs →
    (r : List (WTok V)) → (n : Nat) → 3 * (toks c ++ restToks "OR" (toksL cs)).length + 2 ≤ n →
    pOr n (toks c ++ (restToks "OR" (toksL cs) ++ .rp :: r)) =
      some (orAst (astOf c) (astL cs), .rp :: r)
  | c, h, [], hs, r, n, hn => by
    obtain ⟨m, rfl⟩ : ∃ m, n = m + 2 := ⟨n - 2, by omega⟩
    rw [pOr, pAnd, toksL, restToks, List.flatMap_nil, List.nil_append,
      pPrim_toks c h _ _ (by simp at hn; omega)]
    simp [astL, orAst]
  | c, h, d :: ds, hs, r, n, hn => by
    obtain ⟨m, rfl⟩ : ∃ m, n = m + 2 := ⟨n - 2, by omega⟩
    have hc := toks_length_pos c h
    rw [toksL, restToks_cons] at hn ⊢
    simp only [List.cons_append, List.append_assoc]
    have hk : kw "OR" ≠ kw "AND" := by decide
    rw [pOr, pAnd, pPrim_toks c h _ _ (by simp at hn; omega)]
    simp only [if_neg hk, if_true]
    rw [pOr_toks d hs.1 ds hs.2 r (m + 1) (by simp at hn ⊢; omega)]
    simp [astL, orAst]
termination_by c _ cs => sizeOf c + sizeOf cs
decreasing_by all_goals (simp; try omega)
end

theorem parse_toks (c : Clause V) (h : WellFormed c) : parseCond (toks c) = some (astOf c) := by
  have := pPrim_toks c h [] (3 * (toks c).length + 1) (by omega)
  rw [List.append_nil] at this
  rw [parseCond, pOr, pAnd, this]

theorem TV.and_t (x : TV) : x.and .t = x := by cases x <;> rfl
theorem TV.or_f (x : TV) : x.or .f = x := by cases x <;> rfl

mutual
theorem eval_astOf (I : Pred V → TV) : (c : Clause V) → WellFormed c → (astOf c).eval I = sem I c
  | .and [], h => absurd rfl h.1
  | .or [], h => absurd rfl h.1
  | .and (c :: cs), h => by
    rw [astOf, sem, eval_andAst I c h.2.1 cs h.2.2]
  | .or (c :: cs), h => by
    rw [astOf, sem, eval_orAst I c h.2.1 cs h.2.2]
  | .cmp op c v, h => by simp [astOf, sem, Ast.eval]
  | .isIn neg c vs, h => by simp [astOf, sem, Ast.eval]
  | .null neg c, h => by simp [astOf, sem, Ast.eval]
  | .between neg c a b, h => by simp [astOf, sem, Ast.eval]
termination_by c => sizeOf c
decreasing_by all_goals (simp; try omega)

theorem eval_andAst (I : Pred V → TV) : (c : Clause V) → WellFormed c → (cs : List (Clause V)) →
    AllWF cs → (andAst (astOf c) (astL cs)).eval I = semAll I (c :: cs)
  | c, h, [], hs => by
    rw [astL, andAst, semAll, semAll, TV.and_t, eval_astOf I c h]
  | c, h, d :: ds, hs => by
    rw [astL, andAst, semAll, Ast.eval, eval_astOf I c h, eval_andAst I d hs.1 ds hs.2]
termination_by c _ cs => sizeOf c + sizeOf cs
decreasing_by all_goals (simp; try omega)

theorem eval_orAst (I : Pred V → TV) : (c : Clause V) → WellFormed c → (cs : List (Clause V)) →
    AllWF cs → (orAst (astOf c) (astL cs)).eval I = semAny I (c :: cs)
  | c, h, [], hs => by
    rw [astL, orAst, semAny, semAny, TV.or_f, eval_astOf I c h]
  | c, h, d :: ds, hs => by
    rw [astL, orAst, semAny, Ast.eval, eval_astOf I c h, eval_orAst I d hs.1 ds hs.2]
termination_by c _ cs => sizeOf c + sizeOf cs
decreasing_by all_goals (simp; try omega)
end

/-! ### Empty members make a group unreadable -/

/-- Tokens that cannot start a condition. -/
def Stuck : List (WTok V) → Prop
  | .rp :: _ => True
  | .word w :: _ => w ∈ reserved
  | _ => False

theorem stuck_pPrim (n : Nat) (ts : List (WTok V)) (h : Stuck ts) : pPrim n ts = none := by
  cases n with
  | zero => rw [pPrim]
  | succ n =>
    match ts, h with
    | .rp :: r, _ => rw [pPrim]; simp [pPred]; rintro _ ⟨⟩
    | [.word w], h => rw [pPrim]; simp [pPred]; rintro _ ⟨⟩
    | .word w :: .word w' :: r, h =>
      have hp : pPred (.word w :: .word w' :: r) = none := by
        simp [pPred, show w ∈ reserved from h]
      rw [pPrim, hp]
      · rfl
      · rintro _ ⟨⟩
    | .word w :: .lp :: r, h => rw [pPrim]; simp [pPred]; rintro _ ⟨⟩
    | .word w :: .rp :: r, h => rw [pPrim]; simp [pPred]; rintro _ ⟨⟩
    | .word w :: .comma :: r, h => rw [pPrim]; simp [pPred]; rintro _ ⟨⟩
    | .word w :: .val v :: r, h => rw [pPrim]; simp [pPred]; rintro _ ⟨⟩

theorem stuck_pAnd (n : Nat) (ts : List (WTok V)) (h : Stuck ts) : pAnd n ts = none := by
  cases n with
  | zero => rw [pAnd]
  | succ n => rw [pAnd, stuck_pPrim n ts h]

theorem stuck_pOr (n : Nat) (ts : List (WTok V)) (h : Stuck ts) : pOr n ts = none := by
  cases n with
  | zero => rw [pOr]
  | succ n => rw [pOr, stuck_pAnd n ts h]

theorem pAnd_stuck (pre : List (Clause V)) (hp : AllWF pre) (ts : List (WTok V)) (h : Stuck ts)
    (n : Nat) (hn : 3 * (pre.flatMap fun c => toks c ++ [.word (kw "AND")]).length + 1 ≤ n) :
    pAnd n ((pre.flatMap fun c => toks c ++ [.word (kw "AND")]) ++ ts) = none := by
  induction pre generalizing n with
  | nil => exact stuck_pAnd n ts h
  | cons c pre ih =>
    obtain ⟨m, rfl⟩ : ∃ m, n = m + 1 := ⟨n - 1, by omega⟩
    have hc := toks_length_pos c hp.1
    simp only [List.flatMap_cons, List.append_assoc, List.cons_append, List.nil_append] at hn ⊢
    rw [pAnd, pPrim_toks c hp.1 _ _ (by simp at hn ⊢; omega)]
    simp only [if_true]
    rw [ih hp.2 m (by simp at hn ⊢; omega)]
    rfl

theorem pOr_stuck (pre : List (Clause V)) (hp : AllWF pre) (ts : List (WTok V)) (h : Stuck ts)
    (n : Nat) (hn : 3 * (pre.flatMap fun c => toks c ++ [.word (kw "OR")]).length + 2 ≤ n) :
    pOr n ((pre.flatMap fun c => toks c ++ [.word (kw "OR")]) ++ ts) = none := by
  induction pre generalizing n with
  | nil => exact stuck_pOr n ts h
  | cons c pre ih =>
    obtain ⟨m, rfl⟩ : ∃ m, n = m + 2 := ⟨n - 2, by omega⟩
    have hc := toks_length_pos c hp.1
    have hk : kw "OR" ≠ kw "AND" := by decide
    simp only [List.flatMap_cons, List.append_assoc, List.cons_append, List.nil_append] at hn ⊢
    rw [pOr, pAnd, pPrim_toks c hp.1 _ _ (by simp at hn ⊢; omega)]
    simp only [if_true, if_neg hk]
    rw [ih hp.2 (m + 1) (by simp at hn ⊢; omega)]
    rfl

/-- The text of a group whose member after `pre` is empty. -/
theorem lex_pre (sep k : String) (hsep : sep.toList.head? = some ' ')
    (hlex : ∀ t : List (BSym V), lexFrom [] (bs sep ++ t) = .word (kw k) :: lexFrom [] t)
    (pre : List (Clause V)) (hp : AllWF pre) (t : List (BSym V)) :
    lexFrom [] ((pre.flatMap fun c => meaning c ++ bs sep) ++ t) =
      (pre.flatMap fun c => toks c ++ [.word (kw k)]) ++ lexFrom [] t := by
  induction pre with
  | nil => rfl
  | cons c pre ih =>
    simp only [List.flatMap_cons, List.append_assoc]
    rw [lex_meaning c hp.1 _ (boundary_sp sep hsep _), hlex, ih hp.2]
    simp

theorem intercalate_pre (sep : String) (pre post : List (List (BSym V))) :
    List.intercalate (bs sep) (pre ++ [] :: post) =
      (pre.flatMap fun c => c ++ bs sep) ++ restText sep post := by
  induction pre with
  | nil => simp [intercalate_restText]
  | cons x pre ih =>
    cases pre with
    | nil => simp only [List.cons_append, List.nil_append]; rw [intercalate_cons_cons, intercalate_restText]; simp
    | cons y pre =>
      simp only [List.cons_append] at ih ⊢
      rw [intercalate_cons_cons, ih]; simp

theorem stuck_rest (sep k : String) (hk : kw k ∈ reserved)
    (hlex : ∀ t : List (BSym V), lexFrom [] (bs sep ++ t) = .word (kw k) :: lexFrom [] t)
    (post : List (List (BSym V))) : Stuck (lexFrom [] (restText sep post ++ bs ")")) := by
  cases post with
  | nil => simp [restText, bs, lexFrom, flush, Stuck]
  | cons x post =>
    simp only [restText, List.flatMap_cons, List.append_assoc]
    rw [hlex]; exact hk

theorem group_empty_member (sep k : String) (hsep : sep.toList.head? = some ' ')
    (hlex : ∀ t : List (BSym V), lexFrom [] (bs sep ++ t) = .word (kw k) :: lexFrom [] t)
    (pre : List (Clause V)) (hp : AllWF pre) (post : List (List (BSym V))) :
    lex (paren sep (pre.map meaning ++ [] :: post)) =
      .lp :: ((pre.flatMap fun c => toks c ++ [.word (kw k)]) ++
        lexFrom [] (restText sep post ++ bs ")")) := by
  have e : paren sep (pre.map meaning ++ [] :: post) =
      bs "(" ++ ((pre.flatMap fun c => meaning c ++ bs sep) ++ (restText sep post ++ bs ")")) := by
    have : paren sep (pre.map meaning ++ [] :: post) =
        bs "(" ++ List.intercalate (bs sep) (pre.map meaning ++ [] :: post) ++ bs ")" := by
      cases pre <;> rfl
    rw [this, intercalate_pre]
    simp [List.flatMap_map]
  rw [lex, e, lex_lp, lex_pre sep k hsep hlex pre hp]

end Verif.Spec

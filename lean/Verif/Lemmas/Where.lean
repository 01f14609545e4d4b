import Verif.Lemmas.Bind
import Verif.Spec.Where

/-!
# Lemmas about running conditions
-/

namespace Verif.Spec

variable {V : Type}

/-- Alignment of a statement. -/
abbrev AlignedS (st : Style) (s : Stmt V) (b : List (BSym V)) : Prop :=
  Aligned st s.text s.pos s.args b

theorem AlignedS.write {st : Style} {s : Stmt V} {b : List (BSym V)} (h : AlignedS st s b)
    (x : String) : AlignedS st (s.write (tx x)) (b ++ bs x) := Aligned.tx h x

theorem write_append (s : Stmt V) (t u : Txt) : s.write (t ++ u) = (s.write t).write u := by
  simp [Stmt.write]

/-- Comma separated values. -/
def commaVals (vs : List V) : List (BSym V) :=
  List.intercalate (bs ",") (vs.map fun v => [BSym.val v])

theorem commaVals_cons (v w : V) (vs : List V) :
    commaVals (v :: w :: vs) = .val v :: bs "," ++ commaVals (w :: vs) := by
  simp [commaVals, List.intercalate]

theorem varsLoop_aligned (t : Txt) (vs : List V) (args : List V) (b : List (BSym V))
    (h : Aligned .numbered t args.length args b) :
    Aligned .numbered (t ++ Stmt.varsLoop args.length vs.length) (args.length + vs.length)
      (args ++ vs) (b ++ commaVals vs) := by
  induction vs generalizing t args b with
  | nil => simpa [Stmt.varsLoop, commaVals, List.intercalate] using h
  | cons v vs ih =>
    have h1 := h.var v
    cases vs with
    | nil => simpa [Stmt.varsLoop, commaVals, List.intercalate, Style.var] using h1
    | cons w ws =>
      have h2 := h1.tx ","
      have e : args.length + 1 = (args ++ [v]).length := by simp
      rw [e] at h2
      have h3 := ih _ _ _ h2
      rw [commaVals_cons]
      simp only [List.length_cons] at h3 ⊢
      rw [Stmt.varsLoop, if_pos (by omega)]
      simpa [Style.var, Nat.add_assoc, Nat.add_comm, Nat.add_left_comm] using h3

theorem repeatVar_aligned (v : V) (vs : List V) :
    bindAnon (.anon :: Stmt.repeatVar vs.length) (v :: vs) = some (commaVals (v :: vs)) := by
  induction vs generalizing v with
  | nil => rfl
  | cons w ws ih =>
    rw [commaVals_cons]
    simp only [List.length_cons, Stmt.repeatVar]
    have h := ih w
    rw [bindAnon]
    have h2 := bindAnon_append (tx ",") _ [] (w :: ws) _ _ (bindAnon_tx _) h
    rw [List.nil_append] at h2
    rw [h2]
    simp

theorem vars_aligned {st : Style} {s s' : Stmt V} {b : List (BSym V)} {vs : List V} {p : Txt}
    (h : AlignedS st s b) (hr : s.vars st vs = .ok (s', p)) (x : String) :
    s'.text = s.text ∧ AlignedS st (s'.write (tx x ++ p)) (b ++ bs x ++ tuple vs) := by
  cases st with
  | anon =>
    simp only [Stmt.vars] at hr
    cases vs with
    | nil => simp [Stmt.repeatVar] at hr
    | cons v vs =>
      have e : Stmt.repeatVar (v :: vs).length = .ch ',' :: .anon :: Stmt.repeatVar vs.length := by
        simp [Stmt.repeatVar, tx]
      rw [e] at hr
      simp only [Res.ok.injEq, Prod.mk.injEq] at hr
      obtain ⟨rfl, rfl⟩ := hr
      refine ⟨rfl, ?_, by intro h; cases h⟩
      have h1 := (h.write x).write "("
      have h2 := bindAnon_append _ _ _ _ _ _ h1.1 (repeatVar_aligned v vs)
      have h3 := bindAnon_append _ _ _ _ _ _ h2 (bindAnon_tx ")")
      simpa [bind, Stmt.write, tuple, commaVals] using h3
  | numbered =>
    simp only [Stmt.vars, Res.ok.injEq, Prod.mk.injEq] at hr
    obtain ⟨rfl, rfl⟩ := hr
    refine ⟨rfl, ?_⟩
    have h1 := (h.write x).write "("
    have hp : s.pos = s.args.length := (h.2 rfl).1
    have h1' : Aligned .numbered (s.text ++ tx x ++ tx "(") s.args.length s.args (b ++ bs x ++ bs "(") := by
      rw [← hp]; exact h1
    have h2 := (varsLoop_aligned _ vs _ _ h1').tx ")"
    rw [← hp] at h2
    simpa [AlignedS, Stmt.write, tuple, commaVals] using h2

theorem opText_eq (op : Op) : op.text = opText op := by cases op <;> rfl

theorem meanings_eq (cs : List (Clause V)) : meanings cs = cs.map meaning := by
  induction cs with
  | nil => simp [meanings]
  | cons c cs ih => simp [meanings, ih]

theorem intercalate_cons_cons {α : Type} (sep x y : List α) (r : List (List α)) :
    List.intercalate sep (x :: y :: r) = x ++ sep ++ List.intercalate sep (y :: r) := by
  simp [List.intercalate, List.intersperse]

/-- Texts appended one after the other, each preceded by the separator. -/
def restText (sep : String) (xs : List (List (BSym V))) : List (BSym V) :=
  xs.flatMap fun x => bs sep ++ x

theorem intercalate_restText (sep : String) (x : List (BSym V)) (xs : List (List (BSym V))) :
    List.intercalate (bs sep) (x :: xs) = x ++ restText sep xs := by
  induction xs generalizing x with
  | nil => simp [List.intercalate, restText]
  | cons y ys ih => rw [intercalate_cons_cons, ih]; simp [restText]

mutual
theorem run_aligned (st : Style) : (c : Clause V) → (s s' : Stmt V) → (b : List (BSym V)) →
    AlignedS st s b → c.run st s = .ok s' → AlignedS st s' (b ++ meaning c)
  | .and cs, s, s', b, h, hr => by
    rw [Clause.run] at hr
    rw [meaning, meanings_eq]
    exact group_aligned st " AND " cs s s' b h hr
  | .or cs, s, s', b, h, hr => by
    rw [Clause.run] at hr
    rw [meaning, meanings_eq]
    exact group_aligned st " OR " cs s s' b h hr
  | .cmp op c v, s, s', b, h, hr => by
    simp only [Clause.run, Stmt.var, Res.ok.injEq] at hr
    subst hr
    have h1 := ((Aligned.tx h c.name).tx op.text).var (c.conv v)
    rw [opText_eq] at h1
    simpa [AlignedS, Stmt.write, meaning, opText_eq] using h1
  | .isIn neg c vs, s, s', b, h, hr => by
    simp only [Clause.run, Res.bind_eq_ok] at hr
    obtain ⟨⟨s1, p⟩, hv, hr⟩ := hr
    simp only [Res.ok.injEq] at hr
    subst hr
    have h1 := (vars_aligned h hv (c.name ++ if neg then " NOT IN " else " IN ")).2
    cases neg <;> simpa [meaning] using h1
  | .null neg c, s, s', b, h, hr => by
    simp only [Clause.run, Res.ok.injEq] at hr
    subst hr
    have h1 := (Aligned.tx h c.name).tx (if neg then " IS NOT NULL" else " IS NULL")
    cases neg <;> simpa [AlignedS, Stmt.write, meaning] using h1
  | .between neg c x y, s, s', b, h, hr => by
    simp only [Clause.run, Stmt.var, Res.ok.injEq] at hr
    subst hr
    have h1 := ((((Aligned.tx h c.name).tx (if neg then " NOT BETWEEN " else " BETWEEN ")).var
      (c.conv x)).tx " AND ").var (c.conv y)
    cases neg <;> simpa [AlignedS, Stmt.write, meaning] using h1

theorem group_aligned (st : Style) (sep : String) : (cs : List (Clause V)) → (s s' : Stmt V) →
    (b : List (BSym V)) → AlignedS st s b → runGroup st sep cs s = .ok s' →
    AlignedS st s' (b ++ paren sep (cs.map meaning))
  | [], s, s', b, h, hr => by
    simp only [runGroup, Res.ok.injEq] at hr
    subst hr
    simpa [paren] using h
  | c :: cs, s, s', b, h, hr => by
    simp only [runGroup, Res.bind_eq_ok] at hr
    obtain ⟨s1, h1, s2, h2, hr⟩ := hr
    simp only [Res.ok.injEq] at hr
    subst hr
    have a1 := run_aligned st c _ _ _ (h.write "(") h1
    have a2 := rest_aligned st sep cs _ _ _ a1 h2
    have a3 := a2.write ")"
    simp only [List.map_cons, paren]
    rw [intercalate_restText]
    simpa using a3

theorem rest_aligned (st : Style) (sep : String) : (cs : List (Clause V)) → (s s' : Stmt V) →
    (b : List (BSym V)) → AlignedS st s b → runRest st sep cs s = .ok s' →
    AlignedS st s' (b ++ restText sep (cs.map meaning))
  | [], s, s', b, h, hr => by
    simp only [runRest, Res.ok.injEq] at hr
    subst hr
    simpa [restText] using h
  | c :: cs, s, s', b, h, hr => by
    simp only [runRest, Res.bind_eq_ok] at hr
    obtain ⟨s1, h1, hr⟩ := hr
    have a1 := run_aligned st c _ _ _ (h.write sep) h1
    have a2 := rest_aligned st sep cs _ _ _ a1 hr
    simpa [restText] using a2
end

theorem vars_ok (st : Style) (s : Stmt V) (vs : List V) (h : st = .numbered ∨ vs ≠ []) :
    ∃ r, s.vars st vs = .ok r := by
  cases st with
  | numbered => exact ⟨_, rfl⟩
  | anon =>
    cases vs with
    | nil => simp at h
    | cons v vs => exact ⟨_, rfl⟩

mutual
theorem run_ok (st : Style) : (c : Clause V) → (s : Stmt V) →
    st = .numbered ∨ inNonempty c = true → ∃ s', c.run st s = .ok s'
  | .and cs, s, h => by
    rw [Clause.run]; exact group_ok st _ cs s (by simpa [inNonempty] using h)
  | .or cs, s, h => by
    rw [Clause.run]; exact group_ok st _ cs s (by simpa [inNonempty] using h)
  | .cmp op c v, s, h => ⟨_, rfl⟩
  | .isIn neg c vs, s, h => by
    obtain ⟨r, hr⟩ := vars_ok st s (vs.map c.conv) (by
      rcases h with h | h
      · exact .inl h
      · right; cases vs <;> simp_all [inNonempty])
    exact ⟨_, by simp only [Clause.run, hr]; rfl⟩
  | .null neg c, s, h => ⟨_, rfl⟩
  | .between neg c a b, s, h => ⟨_, rfl⟩
theorem group_ok (st : Style) (sep : String) : (cs : List (Clause V)) → (s : Stmt V) →
    st = .numbered ∨ insNonempty cs = true → ∃ s', runGroup st sep cs s = .ok s'
  | [], s, h => ⟨_, rfl⟩
  | c :: cs, s, h => by
    simp only [insNonempty, Bool.and_eq_true] at h
    obtain ⟨s1, h1⟩ := run_ok st c (s.write (tx "(")) (h.imp id (·.1))
    obtain ⟨s2, h2⟩ := rest_ok st sep cs s1 (h.imp id (·.2))
    exact ⟨s2.write (tx ")"), by simp only [runGroup, h1, Res.bind_eq_ok]; exact ⟨s1, rfl, s2, h2, rfl⟩⟩
theorem rest_ok (st : Style) (sep : String) : (cs : List (Clause V)) → (s : Stmt V) →
    st = .numbered ∨ insNonempty cs = true → ∃ s', runRest st sep cs s = .ok s'
  | [], s, h => ⟨_, rfl⟩
  | c :: cs, s, h => by
    simp only [insNonempty, Bool.and_eq_true] at h
    obtain ⟨s1, h1⟩ := run_ok st c (s.write (tx sep)) (h.imp id (·.1))
    obtain ⟨s2, h2⟩ := rest_ok st sep cs s1 (h.imp id (·.2))
    exact ⟨s2, by simp only [runRest, h1, Res.bind_eq_ok]; exact ⟨s1, rfl, h2⟩⟩
end

mutual
theorem run_panic : (c : Clause V) → (s : Stmt V) → inNonempty c = false →
    c.run .anon s = .panic
  | .and cs, s, h => by rw [Clause.run]; exact group_panic _ cs s (by simpa [inNonempty] using h)
  | .or cs, s, h => by rw [Clause.run]; exact group_panic _ cs s (by simpa [inNonempty] using h)
  | .cmp op c v, s, h => by simp [inNonempty] at h
  | .isIn neg c vs, s, h => by
    cases vs with
    | nil => rfl
    | cons => simp [inNonempty] at h
  | .null neg c, s, h => by simp [inNonempty] at h
  | .between neg c a b, s, h => by simp [inNonempty] at h
theorem group_panic (sep : String) : (cs : List (Clause V)) → (s : Stmt V) →
    insNonempty cs = false → runGroup .anon sep cs s = .panic
  | [], s, h => by simp [insNonempty] at h
  | c :: cs, s, h => by
    rw [runGroup]
    cases hc : inNonempty c with
    | false => rw [run_panic c _ hc]; rfl
    | true =>
      obtain ⟨s1, h1⟩ := run_ok .anon c (s.write (tx "(")) (.inr hc)
      rw [h1]
      show (runRest .anon sep cs s1).bind _ = _
      rw [rest_panic sep cs s1 (by simpa [insNonempty, hc] using h)]
      rfl
theorem rest_panic (sep : String) : (cs : List (Clause V)) → (s : Stmt V) →
    insNonempty cs = false → runRest .anon sep cs s = .panic
  | [], s, h => by simp [insNonempty] at h
  | c :: cs, s, h => by
    rw [runRest]
    cases hc : inNonempty c with
    | false => rw [run_panic c _ hc]; rfl
    | true =>
      obtain ⟨s1, h1⟩ := run_ok .anon c (s.write (tx sep)) (.inr hc)
      rw [h1]
      exact rest_panic sep cs s1 (by simpa [insNonempty, hc] using h)
end

end Verif.Spec

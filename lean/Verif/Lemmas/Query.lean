import Verif.Lemmas.Where
import Verif.Spec.Query
import Mathlib.Data.List.Forall2

/-!
# Lemmas about statement assembly
-/

namespace Verif.Spec

variable {V : Type}

theorem AlignedS.writeS {st : Style} {s : Stmt V} {b : List (BSym V)} (h : AlignedS st s b)
    (x : String) : AlignedS st (s.writeS x) (b ++ bs x) := Aligned.tx h x

theorem bs_joinStr (l : List String) : (bs (joinStr "," l) : List (BSym V)) = commaStrs l := by
  induction l with
  | nil => rfl
  | cons x l ih =>
    cases l with
    | nil => simp [joinStr, commaStrs, List.intercalate]
    | cons y r =>
      simp only [joinStr, bs_append, ih, commaStrs, List.map_cons]
      rw [intercalate_cons_cons]

theorem selectList_aligned {st : Style} {s : Stmt V} {b : List (BSym V)} (h : AlignedS st s b)
    (m : ModelInfo) (sel : List String) :
    AlignedS st (s.selectList m sel) (b ++ selectCols m sel) := by
  unfold Stmt.selectList selectCols
  cases sel with
  | cons x l =>
    simp only [List.length_cons, gt_iff_lt, Nat.zero_lt_succ, if_true, ne_eq, reduceCtorEq,
      not_false_iff]
    rw [← bs_joinStr]
    exact h.writeS _
  | nil =>
    simp only [List.length_nil, gt_iff_lt, Nat.lt_irrefl, if_false, ne_eq, not_true]
    cases hc : m.columns with
    | none => cases m.sqlColumns <;> exact h.writeS _
    | some l =>
      cases hs : m.sqlColumns with
      | none => simp only [tableColumns, hs]; rw [← bs_joinStr]; exact h.writeS _
      | some l' => simp only [tableColumns, hs]; rw [← bs_joinStr]; exact h.writeS _

theorem bs_dbTable (m : ModelInfo) (t : String) :
    (bs (dbTable m t) : List (BSym V)) = qualified m t := by
  unfold dbTable qualified; cases m.database <;> simp

theorem bs_dbName (m : ModelInfo) (t : String) :
    (bs (dbName m) ++ bs t : List (BSym V)) = qualified m t := by
  unfold dbName qualified; cases m.database <;> simp

theorem fromClause_aligned {st : Style} {s s' : Stmt V} {b : List (BSym V)} (h : AlignedS st s b)
    (m : ModelInfo) (f : String) (hr : s.fromClause m f = .ok s') :
    ∃ t, queryTable m f = some t ∧ AlignedS st s' (b ++ bs " FROM " ++ qualified m t) := by
  unfold Stmt.fromClause at hr
  unfold queryTable
  by_cases hf : f = ""
  · rw [if_neg (by simpa using hf)] at hr
    rw [if_pos hf]
    cases hm : m.table with
    | none => simp [hm] at hr
    | some t =>
      simp only [hm, Res.ok.injEq] at hr
      subst hr
      refine ⟨t, rfl, ?_⟩
      rw [← bs_dbTable]
      simpa [AlignedS] using h.writeS (" FROM " ++ dbTable m t)
  · rw [if_pos hf] at hr
    simp only [Res.ok.injEq] at hr
    subst hr
    rw [if_neg hf]
    refine ⟨f, rfl, ?_⟩
    rw [← bs_dbName]
    simpa [AlignedS] using h.writeS (" FROM " ++ dbName m ++ f)

theorem whereClause_aligned {st : Style} {s s' : Stmt V} {b : List (BSym V)} (h : AlignedS st s b)
    (w : Option (Clause V)) (hr : s.whereClause st w = .ok s') :
    AlignedS st s' (b ++ whereText w) := by
  cases w with
  | none =>
    simp only [Stmt.whereClause, Res.ok.injEq] at hr
    subst hr
    simpa [whereText] using h
  | some c =>
    simp only [Stmt.whereClause] at hr
    have := run_aligned st c _ _ _ (h.writeS " WHERE ") hr
    simpa [whereText] using this

theorem groupLoop_aligned {st : Style} {s : Stmt V} {b : List (BSym V)} (h : AlignedS st s b)
    (gs : List String) : AlignedS st (s.groupLoop gs) (b ++ restText "," (gs.map bs)) := by
  induction gs generalizing s b with
  | nil => simpa [restText, Stmt.groupLoop] using h
  | cons g gs ih =>
    have := ih (h.writeS ("," ++ g))
    simpa [Stmt.groupLoop, restText] using this

theorem groupBy_aligned {st : Style} {s : Stmt V} {b : List (BSym V)} (h : AlignedS st s b)
    (gs : List String) : AlignedS st (s.groupByClause gs) (b ++ groupText gs) := by
  cases gs with
  | nil => simpa [Stmt.groupByClause, groupText] using h
  | cons g gs =>
    have := groupLoop_aligned (h.writeS (" GROUP BY " ++ g)) gs
    simp only [groupText, commaStrs, List.map_cons, reduceCtorEq, if_false]
    rw [intercalate_restText]
    simpa [Stmt.groupByClause] using this

/-- Text of the later items of an ORDER BY list. -/
def laterItem (o : Order) : List (BSym V) := bs o.col ++ bs (if o.asc then " ASC" else " DESC")

def firstItem (o : Order) : List (BSym V) := bs o.col ++ bs (if o.asc then "" else " DESC")

theorem laterItem_ok (o : Order) : OrderItem (laterItem o : List (BSym V)) o := by
  obtain ⟨c, a⟩ := o
  cases a
  · exact OrderItem.desc c
  · exact OrderItem.asc c

theorem firstItem_ok (o : Order) : OrderItem (firstItem o : List (BSym V)) o := by
  obtain ⟨c, a⟩ := o
  cases a
  · exact OrderItem.desc c
  · simpa [firstItem] using OrderItem.plain (V := V) c

theorem orderLoop_aligned {st : Style} {s : Stmt V} {b : List (BSym V)} (h : AlignedS st s b)
    (os : List Order) : AlignedS st (s.orderLoop os) (b ++ restText "," (os.map laterItem)) := by
  induction os generalizing s b with
  | nil => simpa [restText, Stmt.orderLoop] using h
  | cons o os ih =>
    have h1 : AlignedS st (if o.asc then s.writeS ("," ++ o.col ++ " ASC")
        else s.writeS ("," ++ o.col ++ " DESC")) (b ++ bs "," ++ laterItem o) := by
      cases ha : o.asc
      · simpa [laterItem, ha] using h.writeS ("," ++ o.col ++ " DESC")
      · simpa [laterItem, ha] using h.writeS ("," ++ o.col ++ " ASC")
    have := ih h1
    simpa [Stmt.orderLoop, restText] using this

theorem orderBy_aligned {st : Style} {s : Stmt V} {b : List (BSym V)} (h : AlignedS st s b)
    (os : List Order) : ∃ o, OrderText o os ∧ AlignedS st (s.orderByClause os) (b ++ o) := by
  cases os with
  | nil => exact ⟨[], .none, by simpa [Stmt.orderByClause] using h⟩
  | cons o os =>
    have h1 : AlignedS st (if o.asc then s.writeS (" ORDER BY " ++ o.col)
        else s.writeS (" ORDER BY " ++ o.col ++ " DESC")) (b ++ bs " ORDER BY " ++ firstItem o) := by
      cases ha : o.asc
      · simpa [firstItem, ha] using h.writeS (" ORDER BY " ++ o.col ++ " DESC")
      · simpa [firstItem, ha] using h.writeS (" ORDER BY " ++ o.col)
    have h2 := orderLoop_aligned h1 os
    refine ⟨_, .some (firstItem o :: os.map laterItem) (o :: os) (by simp) ?_, ?_⟩
    · refine .cons (firstItem_ok o) ?_
      induction os with
      | nil => exact .nil
      | cons o' os ih => exact .cons (laterItem_ok o') (ih (orderLoop_aligned h1 os))
    · rw [intercalate_restText]
      simpa [Stmt.orderByClause] using h2

theorem limit_aligned {st : Style} {s : Stmt V} {b : List (BSym V)} (h : AlignedS st s b) (n : Nat) :
    AlignedS st (s.limitClause n) (b ++ countText " LIMIT " n) := by
  unfold Stmt.limitClause countText
  by_cases hn : n = 0
  · simpa [hn] using h
  · rw [if_pos (by omega), if_neg hn]
    simpa using h.writeS (" LIMIT " ++ toString n)

theorem offset_aligned {st : Style} {s : Stmt V} {b : List (BSym V)} (h : AlignedS st s b) (n : Nat) :
    AlignedS st (s.offsetClause n) (b ++ countText " OFFSET " n) := by
  unfold Stmt.offsetClause countText
  by_cases hn : n = 0
  · simpa [hn] using h
  · rw [if_pos (by omega), if_neg hn]
    simpa using h.writeS (" OFFSET " ++ toString n)

theorem execLimit_aligned {st : Style} {s : Stmt V} {b : List (BSym V)} (h : AlignedS st s b)
    (n : Nat) : AlignedS st (execLimit st n s) (b ++ execLimitText st n) := by
  cases st with
  | anon => exact limit_aligned h n
  | numbered => simpa [execLimit, execLimitText] using h

/-- Text of one assignment. -/
def setItemText (c : SetItem V) : List (BSym V) :=
  bs c.col.name ++ bs " = " ++ [BSym.val (c.col.conv c.val)]

theorem setItem_aligned {st : Style} {s : Stmt V} {b : List (BSym V)} (h : AlignedS st s b)
    (c : SetItem V) : AlignedS st (c.run st s) (b ++ setItemText c) := by
  have := ((Aligned.tx h c.col.name).tx " = ").var (c.col.conv c.val)
  simpa [AlignedS, SetItem.run, Stmt.var, Stmt.write, setItemText] using this

theorem setLoop_aligned {st : Style} {s : Stmt V} {b : List (BSym V)} (h : AlignedS st s b)
    (cs : List (SetItem V)) :
    AlignedS st (s.setLoop st cs) (b ++ restText "," (cs.map setItemText)) := by
  induction cs generalizing s b with
  | nil => simpa [restText, Stmt.setLoop] using h
  | cons c cs ih =>
    have := ih (setItem_aligned (h.writeS ",") c)
    simpa [Stmt.setLoop, restText] using this

theorem set_aligned {st : Style} {s : Stmt V} {b : List (BSym V)} (h : AlignedS st s b)
    (cs : List (SetItem V)) : AlignedS st (s.setClause st cs) (b ++ setText cs) := by
  cases cs with
  | nil => simpa [Stmt.setClause, setText] using h
  | cons c cs =>
    have h2 := setLoop_aligned (setItem_aligned (h.writeS " SET ") c) cs
    have e : setText (c :: cs) = bs " SET " ++ List.intercalate (bs ",") (setItemText c :: cs.map setItemText) := rfl
    rw [e, intercalate_restText]
    simpa [Stmt.setClause] using h2

end Verif.Spec

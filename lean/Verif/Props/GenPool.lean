import Verif.Lemmas.GenPool

/-!
# Property C54: the generator's string builders
-/

namespace Verif.Props

open Verif Verif.Gen Verif.GenPool

variable {F : Type}

/-- Since state `s`, no builder was given back more often than it was handed out. -/
def NoOverRelease (s s' : PS) : Prop := ∀ b, s'.rel b + s.acq b ≤ s'.acq b + s.rel b

private theorem inv_tail {b : Nat} {H : List Nat} {s : PS} (h : Inv (b :: H) s) : Inv H s :=
  ⟨h.nodup, fun c hc => ⟨(h.free c hc).1, (h.free c hc).2.1, fun hm => (h.free c hc).2.2 (by simp [hm])⟩,
    fun c hc => h.held c (by simp [hc])⟩

/-- The condition on the key. -/
private def condR (g : Cfg) (t : Table F) (n off : Nat) : Res Txt :=
  match t.autoCol, t.keyCols with
  | some pk, _ => .ok (tx (g.quoteId pk.name) ++ tx " = " ++ [g.style.var n])
  | none, [pk] => .ok (tx (g.quoteId pk.name) ++ tx " = " ++ [g.style.var n])
  | none, ks =>
    (commaLoop (fun i c => g.sqlValuer c (i + off)) 0 ks).map fun vs =>
      tx "(" ++ g.keyNames ks ++ tx ")" ++ tx " = " ++ tx "(" ++ vs ++ tx ")"

private theorem writes_cond (g : Cfg) (b : Nat) (t : Table F) (n off : Nat) :
    Writes b (condP g b t n off) (condR g t n off) := by
  have comp : ∀ ks : List (GCol F), Writes b (do
      write b (tx "(" ++ g.keyNames ks ++ tx ")" ++ tx " = ")
      write b (tx "(")
      loopP b (fun i c => put b (sqlValuerP g c (i + off))) 0 ks
      write b (tx ")")) ((commaLoop (fun i c => g.sqlValuer c (i + off)) 0 ks).map fun vs =>
          tx "(" ++ g.keyNames ks ++ tx ")" ++ tx " = " ++ tx "(" ++ vs ++ tx ")") := by
    intro ks
    have := writes_seq (writes_write b (tx "(" ++ g.keyNames ks ++ tx ")" ++ tx " = "))
      (writes_seq (writes_write b (tx "(")) (writes_seq
        (writes_loop (b := b) (f := fun i c => put b (sqlValuerP g c (i + off)))
          (p := fun i c => g.sqlValuer c (i + off)) ks 0 (fun i c _ => writes_put (nested_valuer g c _)))
        (writes_write b (tx ")"))))
    have e : seq (.ok (tx "(" ++ g.keyNames ks ++ tx ")" ++ tx " = ")) (seq (.ok (tx "("))
        (seq (commaLoop (fun i c => g.sqlValuer c (i + off)) 0 ks) (.ok (tx ")")))) =
        (commaLoop (fun i c => g.sqlValuer c (i + off)) 0 ks).map fun vs =>
          tx "(" ++ g.keyNames ks ++ tx ")" ++ tx " = " ++ tx "(" ++ vs ++ tx ")" := by
      cases commaLoop (fun i c => g.sqlValuer c (i + off)) 0 ks <;> simp [seq, Res.map]
    rw [e] at this
    exact this
  unfold condP condR
  cases ha : t.autoCol with
  | some pk => exact writes_write _ _
  | none =>
    match hk : t.keyCols with
    | [] => exact comp _
    | [pk] => exact writes_write _ _
    | _ :: _ :: _ => exact comp _

/-- Running code that writes into the one builder in use. -/
private theorem run_writes {b : Nat} {m : M Unit} {r : Res Txt} (h : Writes b m r) {H : List Nat} {s : PS}
    (hi : Inv (b :: H) s) :
    (∃ x s', r = .ok x ∧ m s = (.ok (), s') ∧ Inv (b :: H) s' ∧ Bal s s' ∧ s'.bufs b = s.bufs b ++ x) ∨
    (∃ s', r = .err ∧ m s = (.err, s') ∧ Inv (b :: H) s' ∧ Bal s s') ∨
    (∃ s', r = .panic ∧ m s = (.panic, s') ∧ Inv (b :: H) s' ∧ Bal s s') := by
  obtain ⟨s', e, i, bl, -, w⟩ := h (b :: H) s hi (by simp)
  cases r with
  | ok x => exact .inl ⟨x, s', rfl, e, i, bl, w x rfl⟩
  | err => exact .inr (.inl ⟨s', rfl, e, i, bl⟩)
  | panic => exact .inr (.inr ⟨s', rfl, e, i, bl⟩)

/-- How a builder function may end: with the intended text or failure, the pool in order, nothing
given back too often; on success everything is given back. -/
private def Ends (s : PS) (r : Res Txt) (p : Res Txt × PS) : Prop :=
  p.1 = r ∧ Inv [] p.2 ∧ NoOverRelease s p.2

private theorem over_of {s s1 s' : PS} {b : Nat} (a1 : s1.acq = upd s.acq b (s.acq b + 1)) (r1 : s1.rel = s.rel)
    (h : Bal s1 s') : ∀ c, s'.rel c + s.acq c + (if c = b then 1 else 0) = s'.acq c + s.rel c := by
  intro c
  have := h c
  rw [a1, r1] at this
  simp only [upd] at this
  split at this <;> split <;> simp_all <;> omega

private theorem ends_leak {s s1 s' : PS} {b : Nat} (a1 : s1.acq = upd s.acq b (s.acq b + 1)) (r1 : s1.rel = s.rel)
    (h : Bal s1 s') (hi : Inv [b] s') (r : Res Txt) : Ends s r (r, s') := by
  refine ⟨rfl, inv_tail hi, fun c => ?_⟩
  have := over_of a1 r1 h c
  show s'.rel c + s.acq c ≤ s'.acq c + s.rel c
  omega

private theorem ends_release {s s1 s' : PS} {b : Nat} (a1 : s1.acq = upd s.acq b (s.acq b + 1)) (r1 : s1.rel = s.rel)
    (h : Bal s1 s') (hi : Inv [b] s') (r : Res Txt) : Ends s r (r, (release b s').2) := by
  obtain ⟨s2, e, i2, -, a2, r2⟩ := release_spec hi (by simp)
  rw [e]
  refine ⟨rfl, i2, fun c => ?_⟩
  have := over_of a1 r1 h c
  show s2.rel c + s.acq c ≤ s2.acq c + s.rel c
  rw [a2, r2]
  simp only [upd]
  split <;> simp_all <;> omega

/-- The text of the generated column list. -/
private def sqlColumnsText (g : Cfg) (qt : Txt → Txt) (t : Table F) : Res Txt :=
  commaLoop (fun _ c => (g.sqlColumn c).map qt) 0 t.columns

private theorem writes_sqlColumn (g : Cfg) (qt : Txt → Txt) (b : Nat) (c : GCol F) :
    Writes b (sqlColumnP g qt b c) ((g.sqlColumn c).map qt) := by
  unfold sqlColumnP Cfg.sqlColumn
  cases c.sqlScan with
  | none => exact writes_write _ _
  | some u =>
    intro H s h hb
    obtain ⟨d, s1, e1, hd, i1, z1, k1, a1, r1⟩ := acquire_spec h
    have hne : b ≠ d := by rintro rfl; exact hd hb
    simp only
    rw [bind_ok e1]
    cases hx : u.exec (tx (g.ident c.name)) with
    | ok y =>
      let s2 : PS := { s1 with bufs := upd s1.bufs d (s1.bufs d ++ y) }
      let s3 : PS := { s2 with bufs := upd s2.bufs b (s2.bufs b ++ qt (s2.bufs d)) }
      have i3 : Inv (d :: H) s3 := (i1.set (by simp) _).set (by simp [hb]) _
      obtain ⟨s4, e4, i4, k4, a4, r4⟩ := release_spec i3 hd
      have hd2 : s2.bufs d = y := by show upd s1.bufs d _ d = y; simp [upd, z1]
      refine ⟨s4, ?_, i4, ?_, ?_, ?_⟩
      · show release d s3 = _
        rw [e4]; rfl
      · intro x
        rw [a4, r4]
        show s1.acq x + s.rel x = upd s1.rel d (s1.rel d + 1) x + s.acq x
        rw [a1, r1]
        simp only [upd]
        split <;> subst_vars <;> omega
      · intro x hx hxb
        have hxd : x ≠ d := by rintro rfl; exact hd hx
        rw [k4 x hx]
        show upd (upd s1.bufs d _) b _ x = _
        rw [upd, if_neg hxb, upd, if_neg hxd, k1 x hx]
      · rintro x ⟨⟩
        rw [k4 b hb]
        show upd s2.bufs b (s2.bufs b ++ qt (s2.bufs d)) b = _
        rw [hd2]
        simp only [upd, if_true]
        show upd s1.bufs d _ b ++ _ = _
        rw [upd, if_neg hne, k1 b hb]
    | err =>
      obtain ⟨s4, e4, i4, k4, a4, r4⟩ := release_spec i1 hd
      refine ⟨s4, ?_, i4, ?_, fun x hx _ => by rw [k4 x hx, k1 x hx], by rintro x ⟨⟩⟩
      · simp only
        rw [bind_ok e4]; rfl
      · intro x
        rw [a4, r4, a1, r1]
        simp only [upd]
        split <;> subst_vars <;> omega
    | panic =>
      exfalso
      have : ∀ (u : Tmpl) (x : Txt), u.exec x ≠ .panic := by
        intro u x
        induction u with
        | nil => simp [Tmpl.exec]
        | cons p t ih =>
          cases p with
          | lit y => simp only [Tmpl.exec]; cases ht : Tmpl.exec t x <;> simp_all [Res.map]
          | hole => simp only [Tmpl.exec]; cases ht : Tmpl.exec t x <;> simp_all [Res.map]
          | bad => simp [Tmpl.exec]
      exact this _ _ hx

/-- C54. Writing the column list: from a pool in order, whatever the pool hands out, the text is the
intended one, no builder is given back more often than it was taken, and the pool is in order
again. -/
theorem C54_sql_columns (g : Cfg) (qt : Txt → Txt) (t : Table F) (s : PS) (h : Inv [] s) :
    ∃ s', buildSqlColumnsP g qt t s =
        (commaLoop (fun _ c => (g.sqlColumn c).map qt) 0 t.columns, s') ∧
      Inv [] s' ∧ NoOverRelease s s' := by
  obtain ⟨b, s1, e1, -, i1, z1, -, a1, r1⟩ := acquire_spec h
  unfold buildSqlColumnsP
  rw [bind_ok e1]
  have hw : Writes b (loopP b (fun _ c => sqlColumnP g qt b c) 0 t.columns)
      (commaLoop (fun _ c => (g.sqlColumn c).map qt) 0 t.columns) :=
    writes_loop (f := fun _ c => sqlColumnP g qt b c) t.columns 0 (fun _ c _ => writes_sqlColumn g qt b c)
  rcases run_writes hw i1 with ⟨x, s2, hr, e2, i2, b2, w2⟩ | ⟨s2, hr, e2, i2, b2⟩ | ⟨s2, hr, e2, i2, b2⟩
  · obtain ⟨h1, h2, h3⟩ := ends_release a1 r1 b2 i2 (.ok x)
    refine ⟨_, ?_, h2, h3⟩
    rw [hr]
    simp only [deferRelease]
    rw [bind_ok e2]
    simp [contents, w2, z1]
  · obtain ⟨h1, h2, h3⟩ := ends_release a1 r1 b2 i2 .err
    refine ⟨_, ?_, h2, h3⟩
    rw [hr]
    simp only [deferRelease]
    rw [bind_err e2]
  · obtain ⟨h1, h2, h3⟩ := ends_release a1 r1 b2 i2 .panic
    refine ⟨_, ?_, h2, h3⟩
    rw [hr]
    simp only [deferRelease]
    rw [bind_panic e2]

/-- Text after the head of a statement. -/
private def insertR (g : Cfg) (t : Table F) : Res Txt :=
  seq (.ok (tx " (")) (seq (commaLoop (fun _ c => .ok (tx (g.quoteId c.name))) 0 t.insertColumns)
    (seq (.ok (tx ") VALUES (")) (seq (commaLoop (fun i c => g.sqlValuer c i) 0 t.insertColumns)
      (seq (.ok (tx ")")) (seq (if g.postgres then
        seq (.ok (tx " RETURNING ")) (commaLoop (fun _ c => g.sqlScanner c) 0 t.columns) else .ok [])
        (.ok (tx ";")))))))

private theorem run_head (g : Cfg) (verb : String) (t : Table F) {b : Nat} {s : PS} (hi : Inv [b] s)
    (hz : s.bufs b = []) : ∃ q s', headP g b verb t s = (.ok q, s') ∧ Inv [b] s' ∧ Bal s s' ∧
      q ++ s'.bufs b = tx verb ++ g.tableText t := by
  unfold headP Cfg.tableText
  cases t.ownTable with
  | none =>
    refine ⟨[], { s with bufs := upd s.bufs b (s.bufs b ++ (tx verb ++ tx (g.quoteId t.name))) }, rfl,
      hi.set (by simp) _, fun c => Nat.add_comm (s.acq c) (s.rel c), ?_⟩
    show [] ++ upd s.bufs b _ b = _
    simp [upd, hz]
  | some n => exact ⟨_, s, rfl, hi, Bal.refl s, by simp [hz]⟩

private theorem genInsert_text (g : Cfg) (t : Table F) :
    (g.genInsertOne t).map (·.1) = (insertR g t).map fun x => tx "INSERT INTO " ++ g.tableText t ++ x := by
  unfold Cfg.genInsertOne insertR
  simp only [seq]
  cases commaLoop (fun _ c => Res.ok (tx (g.quoteId c.name))) 0 t.insertColumns with
  | err => rfl
  | panic => rfl
  | ok n =>
    cases commaLoop (fun i c => g.sqlValuer c i) 0 t.insertColumns with
    | err => rfl
    | panic => rfl
    | ok v =>
      cases g.postgres with
      | false =>
        simp only [Res.ok_bind, Bool.false_eq_true, if_false]
        by_cases hl : t.insertColumns.length = t.columns.length <;> simp [hl, Res.map, List.append_assoc]
      | true =>
        simp only [Res.ok_bind, if_true]
        cases commaLoop (fun _ c => g.sqlScanner c) 0 t.columns with
        | err => rfl
        | panic => rfl
        | ok r =>
          by_cases hl : t.insertColumns.length = t.columns.length <;> simp [hl, Res.map, List.append_assoc]

/-- C54. The insert statement. -/
theorem C54_insert (g : Cfg) (t : Table F) (s : PS) (h : Inv [] s) :
    ∃ s', buildInsertP g t s = ((g.genInsertOne t).map (·.1), s') ∧ Inv [] s' ∧ NoOverRelease s s' := by
  obtain ⟨b, s1, e1, -, i1, z1, -, a1, r1⟩ := acquire_spec h
  obtain ⟨q, s2, e2, i2, b2, hq⟩ := run_head g "INSERT INTO " t i1 z1
  rw [genInsert_text]
  have hw : Writes b (do
      write b (tx " (")
      loopP b (fun _ c => write b (tx (g.quoteId c.name))) 0 t.insertColumns
      write b (tx ") VALUES (")
      loopP b (fun i c => put b (sqlValuerP g c i)) 0 t.insertColumns
      write b (tx ")")
      (if g.postgres then do
        write b (tx " RETURNING ")
        loopP b (fun _ c => put b (sqlScannerP g c)) 0 t.columns
       else pure ())
      write b (tx ";")) (insertR g t) := by
    refine writes_seq (writes_write _ _) (writes_seq ?_ (writes_seq (writes_write _ _) (writes_seq ?_
      (writes_seq (writes_write _ _) (writes_seq ?_ (writes_write _ _))))))
    · exact writes_loop _ _ (fun _ c _ => writes_write _ _)
    · exact writes_loop _ _ (fun i c _ => writes_put (nested_valuer g c i))
    · cases g.postgres with
      | false => exact writes_pure b
      | true =>
        exact writes_seq (writes_write _ _) (writes_loop _ _ (fun _ c _ => writes_put (nested_scanner g c)))
  have hfun : buildInsertP g t = (do
      let b ← acquire
      let q ← headP g b "INSERT INTO " t
      (do
        write b (tx " (")
        loopP b (fun _ c => write b (tx (g.quoteId c.name))) 0 t.insertColumns
        write b (tx ") VALUES (")
        loopP b (fun i c => put b (sqlValuerP g c i)) 0 t.insertColumns
        write b (tx ")")
        (if g.postgres then do
          write b (tx " RETURNING ")
          loopP b (fun _ c => put b (sqlScannerP g c)) 0 t.columns
         else pure ())
        write b (tx ";"))
      let r ← contents b
      release b
      pure (q ++ r)) := by
    unfold buildInsertP
    cases g.postgres <;> simp only [bind_assoc, pure_bind, if_true, if_false, Bool.false_eq_true]
  rw [hfun, bind_ok e1, bind_ok e2]
  rcases run_writes hw i2 with ⟨x, s3, hr, e3, i3, b3, w3⟩ | ⟨s3, hr, e3, i3, b3⟩ | ⟨s3, hr, e3, i3, b3⟩
  · obtain ⟨h1, h2, h3⟩ := ends_release a1 r1 (b2.trans b3) i3 (.ok (q ++ s3.bufs b))
    refine ⟨_, ?_, h2, h3⟩
    rw [bind_ok e3, hr, Res.map, ← hq, List.append_assoc, ← w3]
    rfl
  · obtain ⟨h1, h2, h3⟩ := ends_leak a1 r1 (b2.trans b3) i3 .err
    exact ⟨_, by rw [bind_err e3, hr]; rfl, h2, h3⟩
  · obtain ⟨h1, h2, h3⟩ := ends_leak a1 r1 (b2.trans b3) i3 .panic
    exact ⟨_, by rw [bind_panic e3, hr]; rfl, h2, h3⟩

private theorem genFind_text (g : Cfg) (t : Table F) :
    (g.genFindByPK t).map (·.1) = (do
      let sel ← commaLoop (fun _ c => g.sqlScanner c) 0 t.columns
      let c ← condR g t 1 0
      Res.ok (tx "SELECT " ++ sel ++ tx " FROM " ++ g.tableText t ++ (tx " WHERE " ++ c ++ tx " LIMIT 1;"))) := by
  unfold Cfg.genFindByPK condR
  cases commaLoop (fun _ c => g.sqlScanner c) 0 t.columns with
  | err => rfl
  | panic => rfl
  | ok sel =>
    simp only [Res.ok_bind]
    cases ha : t.autoCol with
    | some pk => simp [Res.map]
    | none =>
      match hk : t.keyCols with
      | [] => simp [Res.map, commaLoop]
      | [pk] => simp [Res.map]
      | k1 :: k2 :: ks =>
        simp only [Nat.add_zero]
        cases commaLoop (fun i c => g.sqlValuer c i) 0 (k1 :: k2 :: ks) <;> simp [Res.map]

/-- C54. The find statement. -/
theorem C54_find (g : Cfg) (t : Table F) (s : PS) (h : Inv [] s) :
    ∃ s', buildFindP g t s = ((g.genFindByPK t).map (·.1), s') ∧ Inv [] s' ∧ NoOverRelease s s' := by
  obtain ⟨b, s1, e1, -, i1, z1, -, a1, r1⟩ := acquire_spec h
  rw [genFind_text]
  have hw : Writes b (do
      write b (tx "SELECT ")
      loopP b (fun _ c => put b (sqlScannerP g c)) 0 t.columns
      write b (tx " FROM ")) (seq (.ok (tx "SELECT "))
        (seq (commaLoop (fun _ c => g.sqlScanner c) 0 t.columns) (.ok (tx " FROM ")))) :=
    writes_seq (writes_write _ _) (writes_seq
      (writes_loop _ _ (fun _ c _ => writes_put (nested_scanner g c))) (writes_write _ _))
  have hw' : Writes b (do
      write b (tx " WHERE ")
      condP g b t 1 0
      write b (tx " LIMIT 1;")) (seq (.ok (tx " WHERE ")) (seq (condR g t 1 0) (.ok (tx " LIMIT 1;")))) :=
    writes_seq (writes_write _ _) (writes_seq (writes_cond g b t 1 0) (writes_write _ _))
  have hfun : buildFindP g t = (do
      let b ← acquire
      (do
        write b (tx "SELECT ")
        loopP b (fun _ c => put b (sqlScannerP g c)) 0 t.columns
        write b (tx " FROM "))
      let q ← (match t.ownTable with
        | none => do
          write b (tx (g.quoteId t.name))
          pure []
        | some n => do
          let r ← contents b
          resetB b
          pure (r ++ tx n) : M Txt)
      (do
        write b (tx " WHERE ")
        condP g b t 1 0
        write b (tx " LIMIT 1;"))
      let r ← contents b
      release b
      pure (q ++ r)) := by
    unfold buildFindP
    cases t.ownTable <;> simp only [bind_assoc, pure_bind]
  rw [hfun, bind_ok e1]
  rcases run_writes hw i1 with ⟨x, s2, hr, e2, i2, b2, w2⟩ | ⟨s2, hr, e2, i2, b2⟩ | ⟨s2, hr, e2, i2, b2⟩
  · obtain ⟨sel, hsel, hx⟩ : ∃ sel, commaLoop (fun _ c => g.sqlScanner c) 0 t.columns = .ok sel ∧
        x = tx "SELECT " ++ sel ++ tx " FROM " := by
      revert hr
      cases commaLoop (fun _ c => g.sqlScanner c) 0 t.columns with
      | err => simp [seq]
      | panic => simp [seq]
      | ok sel => intro hr; refine ⟨sel, rfl, ?_⟩; simpa [seq] using hr.symm
    rw [bind_ok e2, hsel, Res.ok_bind]
    obtain ⟨q, s3, e3, i3, b3, hq⟩ : ∃ q s3, (match t.ownTable with
        | none => do
          write b (tx (g.quoteId t.name))
          pure []
        | some n => do
          let r ← contents b
          resetB b
          pure (r ++ tx n) : M Txt) s2 = (.ok q, s3) ∧ Inv [b] s3 ∧ Bal s2 s3 ∧
        q ++ s3.bufs b = s2.bufs b ++ g.tableText t := by
      unfold Cfg.tableText
      cases t.ownTable with
      | none =>
        refine ⟨[], { s2 with bufs := upd s2.bufs b (s2.bufs b ++ tx (g.quoteId t.name)) }, rfl,
          i2.set (by simp) _, fun c => Nat.add_comm (s2.acq c) (s2.rel c), ?_⟩
        show [] ++ upd s2.bufs b _ b = _
        simp [upd]
      | some n =>
        refine ⟨s2.bufs b ++ tx n, { s2 with bufs := upd s2.bufs b [] }, rfl,
          i2.set (by simp) _, fun c => Nat.add_comm (s2.acq c) (s2.rel c), ?_⟩
        show _ ++ upd s2.bufs b _ b = _
        simp [upd]
    rw [bind_ok e3]
    rw [w2, z1, hx] at hq
    rcases run_writes hw' i3 with ⟨y, s4, hr', e4, i4, b4, w4⟩ | ⟨s4, hr', e4, i4, b4⟩ | ⟨s4, hr', e4, i4, b4⟩
    · obtain ⟨c, hc, hy⟩ : ∃ c, condR g t 1 0 = .ok c ∧ y = tx " WHERE " ++ c ++ tx " LIMIT 1;" := by
        revert hr'
        cases condR g t 1 0 with
        | err => simp [seq]
        | panic => simp [seq]
        | ok c => intro hr'; refine ⟨c, rfl, ?_⟩; simpa [seq] using hr'.symm
      obtain ⟨h1, h2, h3⟩ := ends_release a1 r1 ((b2.trans b3).trans b4) i4 (.ok (q ++ s4.bufs b))
      refine ⟨_, ?_, h2, h3⟩
      rw [bind_ok e4, hc, Res.ok_bind, ← hy]
      have : q ++ s4.bufs b = tx "SELECT " ++ sel ++ tx " FROM " ++ g.tableText t ++ y := by
        rw [w4, ← List.append_assoc, hq]; simp [List.append_assoc]
      rw [← this]
      rfl
    · obtain ⟨h1, h2, h3⟩ := ends_leak a1 r1 ((b2.trans b3).trans b4) i4 .err
      have hc : condR g t 1 0 = .err := by
        revert hr'
        cases condR g t 1 0 <;> simp [seq]
      exact ⟨_, by rw [bind_err e4, hc]; rfl, h2, h3⟩
    · obtain ⟨h1, h2, h3⟩ := ends_leak a1 r1 ((b2.trans b3).trans b4) i4 .panic
      have hc : condR g t 1 0 = .panic := by
        revert hr'
        cases condR g t 1 0 <;> simp [seq]
      exact ⟨_, by rw [bind_panic e4, hc]; rfl, h2, h3⟩
  · obtain ⟨h1, h2, h3⟩ := ends_leak a1 r1 b2 i2 .err
    have hc : commaLoop (fun _ c => g.sqlScanner c) 0 t.columns = .err := by
      revert hr
      cases commaLoop (fun _ c => g.sqlScanner c) 0 t.columns <;> simp [seq]
    exact ⟨_, by rw [bind_err e2, hc]; rfl, h2, h3⟩
  · obtain ⟨h1, h2, h3⟩ := ends_leak a1 r1 b2 i2 .panic
    have hc : commaLoop (fun _ c => g.sqlScanner c) 0 t.columns = .panic := by
      revert hr
      cases commaLoop (fun _ c => g.sqlScanner c) 0 t.columns <;> simp [seq]
    exact ⟨_, by rw [bind_panic e2, hc]; rfl, h2, h3⟩

/-- Text of the update statement after its head. -/
private def updateR (g : Cfg) (t : Table F) : Res Txt :=
  seq (.ok (tx " SET ")) (seq (commaLoop (fun i c => (g.sqlValuer c i).map
      fun v => tx (g.quoteId c.name) ++ tx " = " ++ v) 0 t.columnsWithoutPK)
    (seq (.ok (tx " WHERE ")) (seq (condR g t t.columns.length t.columnsWithoutPK.length) (.ok (tx ";")))))

private theorem genUpdate_text (g : Cfg) (t : Table F) :
    (g.genUpdateByPK t).map (·.1) = (updateR g t).map fun x => tx "UPDATE " ++ g.tableText t ++ x := by
  unfold Cfg.genUpdateByPK updateR condR
  simp only [seq]
  cases commaLoop (fun i c => (g.sqlValuer c i).map (tx (g.quoteId c.name) ++ tx " = " ++ ·)) 0 t.columnsWithoutPK with
  | err => rfl
  | panic => rfl
  | ok set =>
    simp only [Res.ok_bind]
    cases ha : t.autoCol with
    | some pk => simp [Res.map]
    | none =>
      match hk : t.keyCols with
      | [] => simp [Res.map, commaLoop]
      | [pk] => simp [Res.map]
      | k1 :: k2 :: ks =>
        simp only
        cases commaLoop (fun i c => g.sqlValuer c (i + t.columnsWithoutPK.length)) 0 (k1 :: k2 :: ks) <;>
          simp [Res.map]

/-- C54, refuted for the update statement: from a pool in order and whatever the pool hands out,
every time the update statement of a table is generated its text is the intended one, but one
builder is given back twice for the one time it was taken, and the pool then holds it twice. -/
theorem C54_update_releases_twice (g : Cfg) (t : Table F) (s : PS) (h : Inv [] s) (x : Txt) (as : List F)
    (hx : g.genUpdateByPK t = .ok (x, as)) :
    ∃ s' b rest, buildUpdateP g t s = (.ok x, s') ∧ s'.free = b :: b :: rest ∧ s'.bufs b = [] ∧
      s'.rel b + s.acq b = s'.acq b + s.rel b + 1 := by
  obtain ⟨b, s1, e1, -, i1, z1, -, a1, r1⟩ := acquire_spec h
  obtain ⟨q, s2, e2, i2, b2, hq⟩ := run_head g "UPDATE " t i1 z1
  have htext := genUpdate_text g t
  rw [hx] at htext
  have hw : Writes b (do
      write b (tx " SET ")
      loopP b (fun i c => do
        let v ← sqlValuerP g c i
        write b (tx (g.quoteId c.name) ++ tx " = " ++ v)) 0 t.columnsWithoutPK
      write b (tx " WHERE ")
      condP g b t t.columns.length t.columnsWithoutPK.length
      write b (tx ";")) (updateR g t) := by
    refine writes_seq (writes_write _ _) (writes_seq ?_ (writes_seq (writes_write _ _)
      (writes_seq (writes_cond g b t _ _) (writes_write _ _))))
    exact writes_loop _ _ (fun i c _ => writes_nested (nested_valuer g c i)
      (fun v => tx (g.quoteId c.name) ++ tx " = " ++ v))
  have hfun : buildUpdateP g t = (do
      let b ← acquire
      let q ← headP g b "UPDATE " t
      (do
        write b (tx " SET ")
        loopP b (fun i c => do
          let v ← sqlValuerP g c i
          write b (tx (g.quoteId c.name) ++ tx " = " ++ v)) 0 t.columnsWithoutPK
        write b (tx " WHERE ")
        condP g b t t.columns.length t.columnsWithoutPK.length
        write b (tx ";"))
      let r ← contents b
      release b
      release b
      pure (q ++ r)) := by
    unfold buildUpdateP
    simp only [bind_assoc]
  rw [hfun, bind_ok e1, bind_ok e2]
  rcases run_writes hw i2 with ⟨y, s3, hr, e3, i3, b3, w3⟩ | ⟨s3, hr, e3, i3, b3⟩ | ⟨s3, hr, e3, i3, b3⟩
  · rw [hr] at htext
    have hxy : x = q ++ s3.bufs b := by
      rw [w3, ← List.append_assoc, hq]
      simpa [Res.map] using htext
    refine ⟨(release b (release b s3).2).2, b, s3.free, ?_, rfl, ?_, ?_⟩
    · rw [bind_ok e3, hxy]; rfl
    · show upd (upd s3.bufs b []) b [] b = []
      simp [upd]
    · have := over_of a1 r1 (b2.trans b3) b
      show upd (upd s3.rel b (s3.rel b + 1)) b (upd s3.rel b (s3.rel b + 1) b + 1) b + s.acq b = s3.acq b + s.rel b + 1
      simp only [upd, if_true] at this ⊢
      omega
  · rw [hr] at htext; simp [Res.map] at htext
  · rw [hr] at htext; simp [Res.map] at htext

private theorem write_run (b : Nat) (x : Txt) (s : PS) :
    write b x s = (.ok (), { s with bufs := upd s.bufs b (s.bufs b ++ x) }) := rfl

/-- Columns without SQL wrapper: the loop of the update statement only touches its own builder. -/
private theorem loop_unwrapped (g : Cfg) (b : Nat) (cs : List (GCol F)) (hcs : ∀ c ∈ cs, c.sqlVal = none) :
    ∀ (i : Nat) (s : PS), ∃ x, commaLoop (fun i c => (g.sqlValuer c i).map
        fun v => tx (g.quoteId c.name) ++ tx " = " ++ v) i cs = .ok x ∧
      loopP b (fun i c => do
        let v ← sqlValuerP g c i
        write b (tx (g.quoteId c.name) ++ tx " = " ++ v)) i cs s =
      (.ok (), { s with bufs := upd s.bufs b (s.bufs b ++ x) }) := by
  induction cs with
  | nil =>
    intro i s
    refine ⟨[], rfl, ?_⟩
    have : upd s.bufs b (s.bufs b ++ []) = s.bufs := by
      funext j; simp only [upd, List.append_nil]; split
      · next h => rw [h]
      · rfl
    rw [this]; rfl
  | cons c cs ih =>
    intro i s
    have hc := hcs c (by simp)
    let s' : PS := { s with bufs := upd s.bufs b (s.bufs b ++ ((if i > 0 then tx "," else []) ++
      (tx (g.quoteId c.name) ++ tx " = " ++ [g.style.var (i + 1)]))) }
    obtain ⟨x, h1, h2⟩ := ih (fun d hd => hcs d (by simp [hd])) (i + 1) s'
    refine ⟨(if i > 0 then tx "," else []) ++ (tx (g.quoteId c.name) ++ tx " = " ++ [g.style.var (i + 1)]) ++ x, ?_, ?_⟩
    · simp only [commaLoop, Cfg.sqlValuer, hc, Res.map, Res.ok_bind]
      simp only [Cfg.sqlValuer, Res.map] at h1
      rw [h1]; rfl
    · simp only [loopP, sqlValuerP, hc, pure_bind]
      simp only [sqlValuerP] at h2
      rw [bind_ok (write_run b _ s),
        bind_ok (s' := s') (by
          rw [write_run]
          congr 2
          funext j
          simp only [upd]
          split <;> simp_all [List.append_assoc]), h2]
      congr 2
      funext j
      show upd (upd s.bufs b _) b _ j = upd s.bufs b _ j
      simp only [upd]
      split
      · show upd s.bufs b _ b ++ x = _
        simp [upd, List.append_assoc]
      · rfl

/-- C54, what it leads to: once a builder is in the pool twice, and the pool hands out what was put
in last, the update statement of every table whose first updated column has an SQL wrapper comes out
with the column name in front of the word UPDATE. -/
theorem C54_update_corrupted (g : Cfg) (t : Table F) (s : PS) (b : Nat) (rest : List Nat)
    (hs : s.sched = lifo) (hf : s.free = b :: b :: rest) (hz : s.bufs b = [])
    (pk : GCol F) (hpk : t.autoCol = some pk) (ho : t.ownTable = none)
    (c : GCol F) (cs : List (GCol F)) (hc : t.columnsWithoutPK = c :: cs)
    (u : Tmpl) (hu : c.sqlVal = some u) (y : Txt) (hy : u.exec [g.style.var 1] = .ok y)
    (hcs : ∀ d ∈ cs, d.sqlVal = none) :
    ∃ x s', buildUpdateP g t s = (.ok (tx (g.quoteId c.name) ++ tx " = " ++
      (tx "UPDATE " ++ tx (g.quoteId t.name) ++ tx " SET " ++ x)), s') := by
  have acq1 : acquire s = (.ok b, { s with free := b :: rest, tick := s.tick + 1, acq := upd s.acq b (s.acq b + 1) }) := by
    simp [acquire, hs, lifo, hf]
  let s1 : PS := { s with free := b :: rest, tick := s.tick + 1, acq := upd s.acq b (s.acq b + 1) }
  let h0 : Txt := tx "UPDATE " ++ tx (g.quoteId t.name) ++ tx " SET "
  let s2 : PS := { s1 with bufs := upd s1.bufs b h0 }
  let s3 : PS := { s2 with free := rest, tick := s2.tick + 1, acq := upd s2.acq b (s2.acq b + 1) }
  have acq2 : acquire s2 = (.ok b, s3) := by
    simp [acquire, s2, s1, s3, hs, lifo]
  have hexec : execP u [g.style.var 1] s2 = (.ok (h0 ++ y), (release b { s3 with bufs := upd s3.bufs b (h0 ++ y) }).2) := by
    unfold execP
    rw [bind_ok acq2, hy]
    simp only [deferRelease]
    have e : s3.bufs b = h0 := by show upd s1.bufs b h0 b = h0; simp [upd]
    have hrun : (do write b y; contents b : M Txt) s3 = (.ok (h0 ++ y), { s3 with bufs := upd s3.bufs b (h0 ++ y) }) := by
      show (Res.ok (upd s3.bufs b (s3.bufs b ++ y) b), { s3 with bufs := upd s3.bufs b (s3.bufs b ++ y) }) = _
      rw [e]; simp [upd]
    rw [hrun]
  let s4 : PS := (release b { s3 with bufs := upd s3.bufs b (h0 ++ y) }).2
  let s5 : PS := { s4 with bufs := upd s4.bufs b (s4.bufs b ++ (tx (g.quoteId c.name) ++ tx " = " ++ (h0 ++ y))) }
  obtain ⟨z, -, hl⟩ := loop_unwrapped g b cs hcs 1 s5
  let s6 : PS := { s5 with bufs := upd s5.bufs b (s5.bufs b ++ z) }
  have h4 : s4.bufs b = [] := by show upd _ b [] b = []; simp [upd]
  have h5 : s5.bufs b = tx (g.quoteId c.name) ++ tx " = " ++ (h0 ++ y) := by
    show upd s4.bufs b _ b = _
    simp [upd, h4]
  have h6 : s6.bufs b = s5.bufs b ++ z := by show upd s5.bufs b _ b = _; simp [upd]
  let tail : Txt := tx " WHERE " ++ (tx (g.quoteId pk.name) ++ tx " = " ++ [g.style.var t.columns.length]) ++ tx ";"
  refine ⟨y ++ z ++ tail, ?_⟩
  unfold buildUpdateP
  rw [bind_ok acq1]
  simp only [headP, ho, hc, condP, hpk]
  have hhead : (do write b (tx "UPDATE " ++ tx (g.quoteId t.name)); pure ([] : Txt) : M Txt) s1 =
      (.ok [], { s1 with bufs := upd s1.bufs b (tx "UPDATE " ++ tx (g.quoteId t.name)) }) := by
    show (Res.ok [], { s1 with bufs := upd s1.bufs b (s1.bufs b ++ (tx "UPDATE " ++ tx (g.quoteId t.name))) }) = _
    rw [show s1.bufs b = [] from hz]; rfl
  rw [bind_ok hhead]
  have hset : write b (tx " SET ") { s1 with bufs := upd s1.bufs b (tx "UPDATE " ++ tx (g.quoteId t.name)) } =
      (.ok (), s2) := by
    show (Res.ok (), _) = _
    congr 2
    funext j
    show upd (upd s1.bufs b (tx "UPDATE " ++ tx (g.quoteId t.name))) b _ j = upd s1.bufs b h0 j
    simp only [upd]
    split <;> simp [h0]
  rw [bind_ok hset]
  have hloop : loopP b (fun i c => do
        let v ← sqlValuerP g c i
        write b (tx (g.quoteId c.name) ++ tx " = " ++ v)) 0 (c :: cs) s2 = (.ok (), s6) := by
    simp only [loopP]
    have hw0 : write b (if 0 > 0 then tx "," else []) s2 = (.ok (), s2) := by
      show (Res.ok (), _) = _
      congr 2
      funext j
      show upd s2.bufs b _ j = s2.bufs j
      simp only [upd]
      split
      · next h => simp [h]
      · rfl
    rw [bind_ok hw0]
    have hent : (do
        let v ← sqlValuerP g c 0
        write b (tx (g.quoteId c.name) ++ tx " = " ++ v) : M Unit) s2 = (.ok (), s5) := by
      have : sqlValuerP g c 0 = execP u [g.style.var 1] := by simp [sqlValuerP, hu]
      rw [this, bind_ok hexec]
      rfl
    rw [bind_ok hent, hl]
  rw [bind_ok hloop]
  refine ⟨_, Prod.ext ?_ rfl⟩
  show Res.ok ([] ++ upd (upd (upd s6.bufs b _) b _) b _ b) = _
  simp only [upd, if_true]
  show Res.ok ([] ++ (s6.bufs b ++ tx " WHERE " ++ (tx (g.quoteId pk.name) ++ tx " = " ++
    [g.style.var t.columns.length]) ++ tx ";")) = _
  rw [h6, h5]
  simp [h0, tail, List.append_assoc]

private def exG : Cfg := { style := .anon, quoteId := fun s => "`" ++ s ++ "`" }

private def exT : Table Nat :=
  { name := "t", auto := some 0,
    columns := [⟨"id", 0, 0, false, none, none⟩, ⟨"p", 1, 1, false, some [.lit "ST_AsText(", .hole, .lit ")"],
      some [.lit "ST_GeomFromText(", .hole, .lit ")"]⟩] }

example : Inv [] ({ sched := lifo } : PS) := ⟨by simp, by simp, by simp⟩
example : exG.genUpdateByPK exT = .ok (tx "UPDATE `t` SET `p` = ST_GeomFromText(" ++ [.anon] ++
    tx ") WHERE `id` = " ++ [.anon] ++ tx ";", [1, 0]) := by decide +kernel
/-- The statements of one table, then the update statement of the next (here the same again). -/
example : ((do
    let _ ← buildUpdateP exG exT
    let f ← buildFindP exG exT
    let i ← buildInsertP exG exT
    let u ← buildUpdateP exG exT
    pure [f, i, u] : M (List Txt)) { sched := lifo }).1 =
    .ok [tx "SELECT `id`,ST_AsText(`p`) FROM `t` WHERE `id` = " ++ [.anon] ++ tx " LIMIT 1;",
      tx "INSERT INTO `t` (`p`) VALUES (ST_GeomFromText(" ++ [.anon] ++ tx "));",
      tx "`p` = UPDATE `t` SET ST_GeomFromText(" ++ [.anon] ++ tx ") WHERE `id` = " ++ [.anon] ++ tx ";"] := by
  decide +kernel

end Verif.Props

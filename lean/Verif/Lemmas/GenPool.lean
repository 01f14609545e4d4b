import Verif.Model.GenPool

/-!
# Lemmas on the generator's builders
-/

namespace Verif.GenPool

open Verif Verif.Gen

variable {F α β : Type}

theorem pure_run (a : α) (s : PS) : (pure a : M α) s = (.ok a, s) := rfl

theorem bind_ok {m : M α} {f : α → M β} {s s' : PS} {a : α} (h : m s = (.ok a, s')) :
    (m >>= f) s = f a s' := by
  show (match m s with | (.ok a, s') => f a s' | (.err, s') => (.err, s') | (.panic, s') => (.panic, s')) = _
  rw [h]

theorem bind_err {m : M α} {f : α → M β} {s s' : PS} (h : m s = (.err, s')) :
    (m >>= f) s = (.err, s') := by
  show (match m s with | (.ok a, s') => f a s' | (.err, s') => (.err, s') | (.panic, s') => (.panic, s')) = _
  rw [h]

theorem bind_panic {m : M α} {f : α → M β} {s s' : PS} (h : m s = (.panic, s')) :
    (m >>= f) s = (.panic, s') := by
  show (match m s with | (.ok a, s') => f a s' | (.err, s') => (.err, s') | (.panic, s') => (.panic, s')) = _
  rw [h]

instance : LawfulMonad M := LawfulMonad.mk' M
  (id_map := fun x => by
    funext s
    show (x >>= fun a => pure a) s = x s
    rcases e : x s with ⟨r | _ | _, s'⟩
    · rw [bind_ok e]; rfl
    · rw [bind_err e]
    · rw [bind_panic e])
  (pure_bind := fun _ _ => rfl)
  (bind_assoc := fun x f h => by
    funext s
    rcases e : x s with ⟨r | _ | _, s'⟩
    · rw [bind_ok e, bind_ok (a := r) (s' := s') e |> fun h0 => (show ((x >>= f) >>= h) s = (f r >>= h) s' from by
        rcases e2 : f r s' with ⟨r2 | _ | _, s2⟩
        · rw [bind_ok (show (x >>= f) s = _ from h0.trans e2), bind_ok e2]
        · rw [bind_err (show (x >>= f) s = _ from h0.trans e2), bind_err e2]
        · rw [bind_panic (show (x >>= f) s = _ from h0.trans e2), bind_panic e2])]
    · rw [bind_err e, bind_err (show (x >>= f) s = _ from bind_err e)]
    · rw [bind_panic e, bind_panic (show (x >>= f) s = _ from bind_panic e)])

/-- The pool is in order while the builders `H` are in use: nothing is in it twice or while in use,
and what is in it is empty. -/
structure Inv (H : List Nat) (s : PS) : Prop where
  nodup : s.free.Nodup
  free : ∀ b ∈ s.free, b < s.next ∧ s.bufs b = [] ∧ b ∉ H
  held : ∀ b ∈ H, b < s.next

/-- As many releases as acquisitions of every builder between two states. -/
def Bal (s s' : PS) : Prop := ∀ b, s'.acq b + s.rel b = s'.rel b + s.acq b

theorem Bal.refl (s : PS) : Bal s s := fun b => by omega

theorem Bal.trans {s s' s'' : PS} (h : Bal s s') (h' : Bal s' s'') : Bal s s'' := by
  intro b
  have := h b
  have := h' b
  omega

theorem acquire_spec {H : List Nat} {s : PS} (h : Inv H s) : ∃ b s', acquire s = (.ok b, s') ∧ b ∉ H ∧
    Inv (b :: H) s' ∧ s'.bufs b = [] ∧ (∀ c ∈ H, s'.bufs c = s.bufs c) ∧
    s'.acq = upd s.acq b (s.acq b + 1) ∧ s'.rel = s.rel := by
  have new : ∀ (s' : PS), s' = { s with
        bufs := upd s.bufs s.next [], next := s.next + 1, tick := s.tick + 1,
        acq := upd s.acq s.next (s.acq s.next + 1) } →
      s.next ∉ H ∧ Inv (s.next :: H) s' ∧ s'.bufs s.next = [] ∧ (∀ c ∈ H, s'.bufs c = s.bufs c) ∧
      s'.acq = upd s.acq s.next (s.acq s.next + 1) ∧ s'.rel = s.rel := by
    rintro s' rfl
    have hn : s.next ∉ H := fun hm => Nat.lt_irrefl _ (h.held _ hm)
    refine ⟨hn, ⟨h.nodup, ?_, ?_⟩, by simp [upd], ?_, rfl, rfl⟩
    · intro b hb
      obtain ⟨h1, h2, h3⟩ := h.free b hb
      have : b ≠ s.next := by omega
      refine ⟨by show b < s.next + 1; omega, ?_, ?_⟩
      · show upd s.bufs s.next [] b = []
        rw [upd, if_neg this]; exact h2
      · simp [this, h3]
    · intro b hb
      show b < s.next + 1
      rcases List.mem_cons.1 hb with rfl | hb
      · omega
      · have := h.held b hb; omega
    · intro c hc
      show upd s.bufs s.next [] c = s.bufs c
      rw [upd, if_neg]
      have := h.held c hc
      omega
  unfold acquire
  split
  · next k hk =>
    split
    · next b hb =>
      have hm : b ∈ s.free := List.mem_of_getElem? hb
      obtain ⟨h1, h2, h3⟩ := h.free b hm
      have hnb : b ∉ s.free.eraseIdx k := by
        obtain ⟨hk', e⟩ := List.getElem?_eq_some_iff.1 hb
        intro hmem
        rw [List.mem_eraseIdx_iff_getElem] at hmem
        obtain ⟨i, hi, hne, he⟩ := hmem
        have := (List.getElem_inj h.nodup).1 (he.trans e.symm)
        exact hne this
      refine ⟨b, _, rfl, h3, ⟨h.nodup.sublist (List.eraseIdx_sublist _ _), ?_, ?_⟩, h2, fun _ _ => rfl, rfl, rfl⟩
      · intro c hc
        obtain ⟨g1, g2, g3⟩ := h.free c (List.mem_of_mem_eraseIdx hc)
        refine ⟨g1, g2, ?_⟩
        simp only [List.mem_cons, not_or]
        refine ⟨?_, g3⟩
        rintro rfl
        exact hnb hc
      · intro c hc
        rcases List.mem_cons.1 hc with rfl | hc
        · exact h1
        · exact h.held c hc
    · exact ⟨_, _, rfl, new _ rfl⟩
  · exact ⟨_, _, rfl, new _ rfl⟩

theorem release_spec {H : List Nat} {s : PS} {b : Nat} (h : Inv (b :: H) s) (hb : b ∉ H) :
    ∃ s', release b s = (.ok (), s') ∧ Inv H s' ∧ (∀ c ∈ H, s'.bufs c = s.bufs c) ∧
      s'.acq = s.acq ∧ s'.rel = upd s.rel b (s.rel b + 1) := by
  refine ⟨_, rfl, ⟨?_, ?_, ?_⟩, ?_, rfl, rfl⟩
  · show (b :: s.free).Nodup
    rw [List.nodup_cons]
    refine ⟨fun hm => (h.free b hm).2.2 (by simp), h.nodup⟩
  · intro c hc
    by_cases hcb : c = b
    · subst hcb
      exact ⟨h.held c (by simp), by simp [upd], hb⟩
    · have hc' : c ∈ s.free := by
        rcases List.mem_cons.1 hc with e | hc
        · exact absurd e hcb
        · exact hc
      obtain ⟨h1, h2, h3⟩ := h.free c hc'
      refine ⟨h1, ?_, fun hm => h3 (by simp [hm])⟩
      show upd s.bufs b [] c = []
      rw [upd, if_neg hcb]; exact h2
  · intro c hc
    exact h.held c (by simp [hc])
  · intro c hc
    show upd s.bufs b [] c = s.bufs c
    rw [upd, if_neg]
    rintro rfl
    exact hb hc

/-- Writing to a builder in use keeps the pool in order. -/
theorem Inv.set {H : List Nat} {s : PS} {b : Nat} (h : Inv H s) (hb : b ∈ H) (x : Txt) :
    Inv H { s with bufs := upd s.bufs b x } := by
  refine ⟨h.nodup, ?_, h.held⟩
  intro c hc
  obtain ⟨h1, h2, h3⟩ := h.free c hc
  refine ⟨h1, ?_, h3⟩
  show upd s.bufs b x c = []
  rw [upd, if_neg]
  · exact h2
  · rintro rfl; exact h3 hb

/-- Code that leaves the builders in use alone and gives back what it takes. -/
def Nested (m : M α) (r : Res α) : Prop :=
  ∀ (H : List Nat) (s : PS), Inv H s → ∃ s', m s = (r, s') ∧ Inv H s' ∧ Bal s s' ∧
    ∀ c ∈ H, s'.bufs c = s.bufs c

/-- Code that appends the text `r` to the builder `b`. -/
def Writes (b : Nat) (m : M Unit) (r : Res Txt) : Prop :=
  ∀ (H : List Nat) (s : PS), Inv H s → b ∈ H → ∃ s', m s = (r.map fun _ => (), s') ∧ Inv H s' ∧ Bal s s' ∧
    (∀ c ∈ H, c ≠ b → s'.bufs c = s.bufs c) ∧ ∀ x, r = .ok x → s'.bufs b = s.bufs b ++ x

theorem nested_pure (a : α) : Nested (pure a : M α) (.ok a) := by
  intro H s h
  exact ⟨s, rfl, h, Bal.refl s, fun _ _ => rfl⟩

theorem nested_exec (t : Tmpl) (x : Txt) : Nested (execP t x) (t.exec x) := by
  intro H s h
  obtain ⟨b, s1, e1, hb, i1, z1, k1, a1, r1⟩ := acquire_spec h
  unfold execP
  rw [bind_ok e1]
  have fin : ∀ (r : Res Txt) (m : M Txt) (s2 : PS), m s1 = (r, s2) → Inv (b :: H) s2 → s2.acq = s1.acq →
      s2.rel = s1.rel → (∀ c ∈ H, s2.bufs c = s1.bufs c) →
      ∃ s', deferRelease b m s1 = (r, s') ∧ Inv H s' ∧ Bal s s' ∧ ∀ c ∈ H, s'.bufs c = s.bufs c := by
    intro r m s2 em i2 a2 r2 k2
    obtain ⟨s3, e3, i3, k3, a3, r3⟩ := release_spec i2 hb
    refine ⟨s3, ?_, i3, ?_, ?_⟩
    · simp only [deferRelease, em, e3]
    · intro c
      rw [a3, r3, a2, r2, a1, r1]
      simp only [upd]
      split <;> subst_vars <;> omega
    · intro c hc
      rw [k3 c hc, k2 c hc, k1 c hc]
  have hex : t.exec x ≠ .panic := by
    induction t with
    | nil => simp [Tmpl.exec]
    | cons p t ih =>
      cases p with
      | lit y => simp only [Tmpl.exec]; cases ht : Tmpl.exec t x <;> simp_all [Res.map]
      | hole => simp only [Tmpl.exec]; cases ht : Tmpl.exec t x <;> simp_all [Res.map]
      | bad => simp [Tmpl.exec]
  cases hx : t.exec x with
  | ok y =>
    refine fin (.ok y) _ { s1 with bufs := upd s1.bufs b (s1.bufs b ++ y) } ?_ (i1.set (by simp) _) rfl rfl ?_
    · show (Res.ok (upd s1.bufs b (s1.bufs b ++ y) b), _) = _
      simp [upd, z1]
    · intro c hc
      show upd s1.bufs b _ c = _
      rw [upd, if_neg]
      rintro rfl; exact hb hc
  | err => exact fin .err _ s1 rfl i1 rfl rfl (fun _ _ => rfl)
  | panic => exact absurd hx hex

theorem nested_scanner (g : Cfg) (c : GCol F) : Nested (sqlScannerP g c) (g.sqlScanner c) := by
  unfold sqlScannerP Cfg.sqlScanner
  cases c.sqlScan with
  | some t => exact nested_exec _ _
  | none => exact nested_pure _

theorem nested_valuer (g : Cfg) (c : GCol F) (i : Nat) : Nested (sqlValuerP g c i) (g.sqlValuer c i) := by
  unfold sqlValuerP Cfg.sqlValuer
  cases c.sqlVal with
  | some t => exact nested_exec _ _
  | none => exact nested_pure _

theorem writes_write (b : Nat) (x : Txt) : Writes b (write b x) (.ok x) := by
  intro H s h hb
  refine ⟨_, rfl, h.set hb _, fun c => Nat.add_comm (s.acq c) (s.rel c), ?_, ?_⟩
  · intro c hc hne
    show upd s.bufs b _ c = _
    rw [upd, if_neg hne]
  · rintro y ⟨⟩
    show upd s.bufs b _ b = _
    simp [upd]

theorem writes_pure (b : Nat) : Writes b (pure ()) (.ok []) := by
  intro H s h hb
  exact ⟨s, rfl, h, Bal.refl s, fun _ _ _ => rfl, by rintro y ⟨⟩; simp⟩

/-- Text after text. -/
def seq (r r' : Res Txt) : Res Txt := do
  let x ← r
  let y ← r'
  .ok (x ++ y)

theorem writes_seq {b : Nat} {m m' : M Unit} {r r' : Res Txt} (h : Writes b m r) (h' : Writes b m' r') :
    Writes b (do m; m') (seq r r') := by
  intro H s hi hb
  obtain ⟨s1, e1, i1, b1, k1, w1⟩ := h H s hi hb
  cases hr : r with
  | ok x =>
    subst hr
    obtain ⟨s2, e2, i2, b2, k2, w2⟩ := h' H s1 i1 hb
    refine ⟨s2, ?_, i2, b1.trans b2, fun c hc hne => (k2 c hc hne).trans (k1 c hc hne), ?_⟩
    · rw [bind_ok (by exact e1), e2]
      cases r' <;> rfl
    · intro y hy
      cases hr' : r' with
      | ok z =>
        rw [hr'] at hy
        have : y = x ++ z := by simpa [seq] using hy.symm
        rw [this, w2 z hr', w1 x rfl, List.append_assoc]
      | err => rw [hr'] at hy; simp [seq] at hy
      | panic => rw [hr'] at hy; simp [seq] at hy
  | err =>
    subst hr
    exact ⟨s1, bind_err (by exact e1), i1, b1, k1, by intro y hy; simp [seq] at hy⟩
  | panic =>
    subst hr
    exact ⟨s1, bind_panic (by exact e1), i1, b1, k1, by intro y hy; simp [seq] at hy⟩

theorem writes_nested {b : Nat} {m : M α} {r : Res α} (h : Nested m r) (f : α → Txt) :
    Writes b (do let x ← m; write b (f x)) (r.map f) := by
  intro H s hi hb
  obtain ⟨s1, e1, i1, b1, k1⟩ := h H s hi
  cases hr : r with
  | ok x =>
    subst hr
    obtain ⟨s2, e2, i2, b2, k2, w2⟩ := writes_write b (f x) H s1 i1 hb
    refine ⟨s2, ?_, i2, b1.trans b2, fun c hc hne => (k2 c hc hne).trans (k1 c hc), ?_⟩
    · rw [bind_ok e1, e2]; rfl
    · rintro y ⟨⟩
      rw [w2 _ rfl, k1 b hb]
  | err =>
    subst hr
    exact ⟨s1, bind_err e1, i1, b1, fun c hc _ => k1 c hc, by rintro y ⟨⟩⟩
  | panic =>
    subst hr
    exact ⟨s1, bind_panic e1, i1, b1, fun c hc _ => k1 c hc, by rintro y ⟨⟩⟩

theorem writes_put {b : Nat} {m : M Txt} {r : Res Txt} (h : Nested m r) : Writes b (put b m) r := by
  have := writes_nested (b := b) h id
  have e : r.map id = r := by cases r <;> rfl
  rw [e] at this
  exact this

theorem writes_loop {b : Nat} {f : Nat → GCol F → M Unit} {p : Nat → GCol F → Res Txt}
    (cs : List (GCol F)) : ∀ (i : Nat), (∀ i, ∀ c ∈ cs, Writes b (f i c) (p i c)) →
    Writes b (loopP b f i cs) (commaLoop p i cs) := by
  induction cs with
  | nil => intro i _; exact writes_pure b
  | cons c cs ih =>
    intro i h
    have h1 := writes_seq (writes_write b (if i > 0 then tx "," else []))
      (writes_seq (h i c (by simp)) (ih (i + 1) (fun j d hd => h j d (by simp [hd]))))
    have e : seq (.ok (if i > 0 then tx "," else [])) (seq (p i c) (commaLoop p (i + 1) cs)) =
        commaLoop p i (c :: cs) := by
      simp only [commaLoop, seq]
      cases p i c with
      | ok x => cases commaLoop p (i + 1) cs <;> simp [List.append_assoc]
      | err => rfl
      | panic => rfl
    rw [e] at h1
    exact h1

end Verif.GenPool

import Verif.Lemmas.PageText

/-!
# Lemmas about what the statements of pagination find
-/

namespace Verif.Store

open Verif Verif.Gen Verif.Spec Verif.Spec.Gen Verif.Spec.Sql Verif.Spec.Store Verif.Sql Verif.Helpers Verif.Spec.Helpers Verif.Spec.Pager

set_option linter.unusedSectionVars false

variable {F X V : Type} [DecidableEq F] [DecidableEq X] [DecidableEq V]

variable {E : Env F X V} {t : Table F} {Ok : F → X → Prop} {K : Compare V} {O : Comp F X}

/-! ## The order of keys -/

/-- Values of the key columns are good. -/
def KeyGood (Ok : F → X → Prop) (t : Table F) (s : F → X) : Prop := ∀ c ∈ keyCols t, Ok c.field (s c.field)

omit [DecidableEq F] [DecidableEq X] in
theorem good_key {s : F → X} (hs : Good Ok t s) : KeyGood Ok t s := fun c hc => hs c (mem_of_pick hc)

section order
variable (hO : Ordered O Ok t)
include hO

omit [DecidableEq F] [DecidableEq X] in
theorem lt_asymm' {c : GCol F} (hc : c ∈ keyCols t) {x y : X} (hx : Ok c.field x) (hy : Ok c.field y)
    (h1 : O.lt c.field x y = true) : O.lt c.field y x = false := by
  cases h2 : O.lt c.field y x with
  | false => rfl
  | true => simpa [hO.irrefl c hc x hx] using hO.trans c hc x y x hx hy hx h1 h2

omit [DecidableEq F] [DecidableEq X] in
/-- One column, upwards or downwards. -/
theorem dir_facts {c : GCol F} (hc : c ∈ keyCols t) (up : Bool) :
    ∃ L : X → X → Bool, (∀ x y, L x y = if up then O.lt c.field x y else O.lt c.field y x) ∧
      (∀ x, Ok c.field x → L x x = false) ∧
      (∀ x y, Ok c.field x → Ok c.field y → L x y = true → L y x = false) ∧
      (∀ x y z, Ok c.field x → Ok c.field y → Ok c.field z → L x y = true → L y z = true → L x z = true) ∧
      (∀ x y, Ok c.field x → Ok c.field y → x = y ∨ L x y = true ∨ L y x = true) := by
  cases up with
  | true =>
    exact ⟨O.lt c.field, fun _ _ => rfl, hO.irrefl c hc, fun x y hx hy h => lt_asymm' hO hc hx hy h, hO.trans c hc, hO.total c hc⟩
  | false =>
    refine ⟨fun x y => O.lt c.field y x, fun _ _ => rfl, hO.irrefl c hc, fun x y hx hy h => lt_asymm' hO hc hy hx h,
      fun x y z hx hy hz h1 h2 => hO.trans c hc z y x hz hy hx h2 h1, fun x y hx hy => ?_⟩
    rcases hO.total c hc x y hx hy with e | e | e
    · exact .inl e
    · exact .inr (.inr e)
    · exact .inr (.inl e)

omit [DecidableEq F] [DecidableEq X] in
theorem earlier_cons {c : GCol F} (hc : c ∈ keyCols t) (up : Bool) (ks : List (GCol F × Bool)) {a b : F → X}
    (ha : KeyGood Ok t a) (hb : KeyGood Ok t b) :
    O.earlier ((c, up) :: ks) a b =
      if (if up then O.lt c.field (a c.field) (b c.field) else O.lt c.field (b c.field) (a c.field)) then true
      else if (if up then O.lt c.field (b c.field) (a c.field) else O.lt c.field (a c.field) (b c.field)) then false
      else O.earlier ks a b := by
  simp only [Comp.earlier, hO.before c hc _ _ (ha c hc) (hb c hc), hO.before c hc _ _ (hb c hc) (ha c hc)]

omit [DecidableEq F] [DecidableEq X] in
theorem earlier_iff {c : GCol F} (hc : c ∈ keyCols t) (up : Bool) (ks : List (GCol F × Bool)) {a b : F → X}
    (ha : KeyGood Ok t a) (hb : KeyGood Ok t b) :
    O.earlier ((c, up) :: ks) a b = true ↔
      (if up then O.lt c.field (a c.field) (b c.field) else O.lt c.field (b c.field) (a c.field)) = true ∨
      (a c.field = b c.field ∧ O.earlier ks a b = true) := by
  rw [earlier_cons hO hc up ks ha hb]
  obtain ⟨L, hL, hi, has, -, htot⟩ := dir_facts hO hc up
  have e1 := hL (a c.field) (b c.field)
  have e2 := hL (b c.field) (a c.field)
  rw [← e1, ← e2]
  rcases htot _ _ (ha c hc) (hb c hc) with e | e | e
  · rw [e, hi _ (hb c hc)]; simp
  · simp [e]
  · have e' := has _ _ (hb c hc) (ha c hc) e
    have hne : a c.field ≠ b c.field := fun h => by rw [h, hi _ (hb c hc)] at e; exact absurd e (by simp)
    simp [e, e', hne]

omit [DecidableEq F] [DecidableEq X] in
theorem earlier_lex (up : Bool) (l : List (GCol F)) (hl : ∀ c ∈ l, c ∈ keyCols t) :
    (∀ a, KeyGood Ok t a → O.earlier (l.map fun c => (c, up)) a a = false) ∧
    (∀ a b d, KeyGood Ok t a → KeyGood Ok t b → KeyGood Ok t d → O.earlier (l.map fun c => (c, up)) a b = true →
      O.earlier (l.map fun c => (c, up)) b d = true → O.earlier (l.map fun c => (c, up)) a d = true) ∧
    (∀ a b, KeyGood Ok t a → KeyGood Ok t b → (∀ c ∈ l, a c.field = b c.field) ∨
      O.earlier (l.map fun c => (c, up)) a b = true ∨ O.earlier (l.map fun c => (c, up)) b a = true) := by
  induction l with
  | nil => exact ⟨fun _ _ => rfl, fun _ _ _ _ _ _ h => absurd h (by simp [Comp.earlier]), fun _ _ _ _ => .inl (by simp)⟩
  | cons c l ih =>
    obtain ⟨i1, i2, i3⟩ := ih fun c hc => hl c (by simp [hc])
    have hc := hl c (by simp)
    obtain ⟨L, hL, hi, has, htr, htot⟩ := dir_facts hO hc up
    simp only [List.map_cons]
    have key : ∀ a b, KeyGood Ok t a → KeyGood Ok t b → (O.earlier ((c, up) :: l.map fun c => (c, up)) a b = true ↔
        L (a c.field) (b c.field) = true ∨ (a c.field = b c.field ∧ O.earlier (l.map fun c => (c, up)) a b = true)) :=
      fun a b ha hb => by rw [hL]; exact earlier_iff hO hc up _ ha hb
    refine ⟨fun a ha => ?_, fun a b d ha hb hd h1 h2 => ?_, fun a b ha hb => ?_⟩
    · rw [Bool.eq_false_iff, ne_eq, key a a ha ha, hi _ (ha c hc), i1 a ha]; simp
    · rw [key _ _ ha hb] at h1
      rw [key _ _ hb hd] at h2
      rw [key _ _ ha hd]
      rcases h1 with h1 | ⟨e1, h1⟩ <;> rcases h2 with h2 | ⟨e2, h2⟩
      · exact .inl (htr _ _ _ (ha c hc) (hb c hc) (hd c hc) h1 h2)
      · exact .inl (e2 ▸ h1)
      · exact .inl (e1 ▸ h2)
      · exact .inr ⟨e1.trans e2, i2 a b d ha hb hd h1 h2⟩
    · rw [key _ _ ha hb, key _ _ hb ha]
      rcases htot _ _ (ha c hc) (hb c hc) with e | e | e
      · rcases i3 a b ha hb with h | h | h
        · refine .inl fun c' hc' => ?_
          rcases List.mem_cons.1 hc' with rfl | hc'
          · exact e
          · exact h c' hc'
        · exact .inr (.inl (.inr ⟨e, h⟩))
        · exact .inr (.inr (.inr ⟨e.symm, h⟩))
      · exact .inr (.inl (.inl e))
      · exact .inr (.inr (.inl e))

end order

omit [DecidableEq F] [DecidableEq X] in
theorem keyOf_eq_iff (a b : F → X) : keyOf t a = keyOf t b ↔ ∀ c ∈ keyCols t, a c.field = b c.field := by
  unfold keyOf keyCols
  exact List.map_inj_left

omit [DecidableEq F] [DecidableEq X] in
theorem earlier_congr (up : Bool) (l : List (GCol F)) {a a' b b' : F → X} (ha : ∀ c ∈ l, a c.field = a' c.field)
    (hb : ∀ c ∈ l, b c.field = b' c.field) :
    O.earlier (l.map fun c => (c, up)) a b = O.earlier (l.map fun c => (c, up)) a' b' := by
  induction l with
  | nil => rfl
  | cons c l ih =>
    simp only [List.map_cons, Comp.earlier, ha c (by simp), hb c (by simp),
      ih (fun c hc => ha c (by simp [hc])) (fun c hc => hb c (by simp [hc]))]

omit [DecidableEq F] [DecidableEq X] in
/-- Only the keys matter. -/
theorem beyond_congr (up : Bool) {a a' b b' : F → X} (ha : keyOf t a = keyOf t a') (hb : keyOf t b = keyOf t b') :
    Beyond O t up a b ↔ Beyond O t up a' b' := by
  unfold Beyond keyDir
  rw [earlier_congr up (keyCols t) ((keyOf_eq_iff a a').1 ha) ((keyOf_eq_iff b b').1 hb)]

omit [DecidableEq F] [DecidableEq X] in
theorem from_congr (up : Bool) {a a' b b' : F → X} (ha : keyOf t a = keyOf t a') (hb : keyOf t b = keyOf t b') :
    From O t up a b ↔ From O t up a' b' := by
  unfold From
  rw [ha, hb, beyond_congr up ha hb]

section
variable (hO : Ordered O Ok t)
include hO

omit [DecidableEq F] [DecidableEq X] in
theorem beyond_irrefl {up : Bool} {a b : F → X} (ha : KeyGood Ok t a) (he : keyOf t b = keyOf t a) : ¬ Beyond O t up a b := by
  rw [beyond_congr (O := O) up rfl he]
  have := (earlier_lex hO up (keyCols t) fun _ h => h).1 a ha
  unfold Beyond keyDir
  simp [this]

omit [DecidableEq F] [DecidableEq X] in
theorem beyond_trans {up : Bool} {a b d : F → X} (ha : KeyGood Ok t a) (hb : KeyGood Ok t b) (hd : KeyGood Ok t d)
    (h1 : Beyond O t up a b) (h2 : Beyond O t up b d) : Beyond O t up a d :=
  (earlier_lex hO up (keyCols t) fun _ h => h).2.1 a b d ha hb hd h1 h2

omit [DecidableEq F] [DecidableEq X] in
theorem beyond_total (up : Bool) {a b : F → X} (ha : KeyGood Ok t a) (hb : KeyGood Ok t b) :
    keyOf t a = keyOf t b ∨ Beyond O t up a b ∨ Beyond O t up b a := by
  rw [keyOf_eq_iff]
  exact (earlier_lex hO up (keyCols t) fun _ h => h).2.2 a b ha hb

omit [DecidableEq F] [DecidableEq X] in
theorem from_trans {up : Bool} {a b d : F → X} (ha : KeyGood Ok t a) (hb : KeyGood Ok t b) (hd : KeyGood Ok t d)
    (h1 : From O t up a b) (h2 : From O t up b d) : From O t up a d := by
  rcases h1 with h1 | h1
  · exact (from_congr up h1 rfl).1 h2
  · rcases h2 with h2 | h2
    · exact .inr ((beyond_congr up rfl h2).2 h1)
    · exact .inr (beyond_trans hO ha hb hd h1 h2)

omit [DecidableEq F] [DecidableEq X] in
theorem beyond_from {up : Bool} {a b d : F → X} (ha : KeyGood Ok t a) (hb : KeyGood Ok t b) (hd : KeyGood Ok t d)
    (h1 : Beyond O t up a b) (h2 : From O t up b d) : Beyond O t up a d := by
  rcases h2 with h2 | h2
  · exact (beyond_congr up rfl h2).2 h1
  · exact beyond_trans hO ha hb hd h1 h2

/-! ## The comparison with the cursor -/

variable (h : Setup E t Ok) (hA : Agrees K E.null E.enc Ok t O)
include h hA

theorem rowTruth_iff {s v : F → X} {row : Row V} (hr : Rep E.enc E.D t s row) (hs : KeyGood Ok t s) (hv : KeyGood Ok t v)
    (up : Bool) (l : List (GCol F)) (hl : ∀ c ∈ l, c ∈ keyCols t) :
    rowTruth K E.null up (((l.map (colName E.D)).map row).zip (l.map fun c => E.enc c.field (v c.field))) = .t ↔
      (∀ c ∈ l, s c.field = v c.field) ∨ O.earlier (l.map fun c => (c, up)) v s = true := by
  induction l with
  | nil => simp [rowTruth]
  | cons c l ih =>
    have hc := hl c (by simp)
    have hc' := mem_of_pick hc
    have hs' := hs c hc
    have hv' := hv c hc
    have n1 := h.keyed c hc _ hs'
    have n2 := h.keyed c hc _ hv'
    have ih := ih fun c hc => hl c (by simp [hc])
    rw [List.map_cons (f := fun c => (c, up)), earlier_iff hO hc up _ hv hs]
    simp only [List.map_cons, List.zip_cons_cons, rowTruth, hr c hc', n1, n2, or_self, if_false,
      hA.lt c hc' _ _ hs' hv', hA.lt c hc' _ _ hv' hs', hA.eq c hc' _ _ hs' hv']
    by_cases e1 : (if up then O.lt c.field (v c.field) (s c.field) else O.lt c.field (s c.field) (v c.field)) = true
    · simp [e1]
    · by_cases e2 : O.eq c.field (s c.field) (v c.field) = true
      · have e3 := (hO.eq c hc _ _ hs' hv').1 e2
        rw [if_neg e1, if_pos e2, ih, List.forall_mem_cons]
        constructor
        · rintro (h1 | h1)
          · exact .inl ⟨e3, h1⟩
          · exact .inr (.inr ⟨e3.symm, h1⟩)
        · rintro (h1 | h1 | h1)
          · exact .inl h1.2
          · exact absurd h1 e1
          · exact .inr h1.2
      · have e3 : ¬ s c.field = v c.field := fun e => e2 ((hO.eq c hc _ _ hs' hv').2 e)
        have e4 : ¬ v c.field = s c.field := fun e => e3 e.symm
        simp [e1, e2, e3, e4]

/-- The condition selects what is from the cursor on. -/
theorem cursor_selects {s v : F → X} {row : Row V} (hr : Rep E.enc E.D t s row) (hs : KeyGood Ok t s) (hv : KeyGood Ok t v)
    (d : Pager.Dir) :
    pageSelects K E.null (some (cursorCond E d (fun f => E.enc f (v f)) (keyCols t))) row = true ↔ From O t (upOf d) v s := by
  have main := rowTruth_iff hO h hA hr hs hv (upOf d) (keyCols t) fun _ h => h
  unfold From Beyond keyDir
  rw [keyOf_eq_iff]
  match e : keyCols t, keyCols_ne' h with
  | [c], _ =>
    have hc : c ∈ keyCols t := by simp [e]
    have hc' := mem_of_pick hc
    have hs' := hs c hc
    have hv' := hv c hc
    have n1 := h.keyed c hc _ hs'
    have n2 := h.keyed c hc _ hv'
    rw [← e, ← main, e]
    simp only [cursorCond, pageSelects, selects, Ast.eval, predTruth, TV.flip, compare3, known3, hr c hc', n1, n2, or_self,
      if_false, List.map_cons, List.map_nil, List.zip_cons_cons, List.zip_nil_left, rowTruth, decide_eq_true_eq]
    cases d <;> simp [upOf, TV.ofBool]
  | a :: b :: l, _ =>
    rw [← e, ← main, e]
    simp only [cursorCond, pageSelects, decide_eq_true_eq]

end

/-! ## What is found -/

section
variable (h : Setup E t Ok) (hA : Agrees K E.null E.enc Ok t O) (hO : Ordered O Ok t)
include h hA hO

theorem arranged {m : Map F X} {rows : List (Row V)} (hh : Holds E.enc E.D Ok t m rows) (up : Bool) {sel : Row V → Bool}
    {P : (F → X) → Prop} (hs : ∀ row s, Shows E Ok t m row s → (sel row = true ↔ P s)) :
    ∃ l, List.Forall₂ (Shows E Ok t m)
        (K.arrange ((keyCols t).map fun c => (colName E.D c, up)) (rows.filter sel)) l ∧ Listed O t up m P l := by
  have hp := K.perm ((keyCols t).map fun c => (colName E.D c, up)) (rows.filter sel)
  have hsrt := K.sorted ((keyCols t).map fun c => (colName E.D c, up)) (rows.filter sel)
  generalize K.arrange ((keyCols t).map fun c => (colName E.D c, up)) (rows.filter sel) = rs at hp hsrt
  have hmem : ∀ r, r ∈ rs ↔ r ∈ rows ∧ sel r = true := fun r => by rw [hp.mem_iff, List.mem_filter]
  obtain ⟨l, hl⟩ := records hh (rs := rs) fun r hr => ((hmem r).1 hr).1
  refine ⟨l, hl, ⟨fun s => ⟨fun hs' => ?_, fun hs' => ?_⟩, ?_⟩⟩
  · obtain ⟨r, hr, h1⟩ := forall₂_right hl hs'
    exact ⟨h1.1, (hs r s h1).1 ((hmem r).1 hr).2⟩
  · obtain ⟨-, hg, row, hrow, hrep⟩ := hh.stored _ _ hs'.1
    have h1 := (hs row s ⟨hs'.1, hg, hrep⟩).2 hs'.2
    obtain ⟨s', hs'', h2⟩ := forall₂_left hl ((hmem row).2 ⟨hrow, h1⟩)
    rw [shows_same h ⟨hs'.1, hg, hrep⟩ h2]
    exact hs''
  · have h1 : rs.Pairwise (Apart E.D t) :=
      (hh.once.filter _).perm hp.symm fun {a b} ⟨c, hc, hne⟩ => ⟨c, hc, fun e => hne e.symm⟩
    refine forall₂_pairwise hl (h1.and hsrt) fun x y x' y' hx hy hxy => ?_
    have hk := apart_keys h hx hy hxy.1
    have hc : ∀ p ∈ keyDir t up, p.1 ∈ t.columns := by
      intro p hp
      obtain ⟨c, hc, rfl⟩ := List.mem_map.1 hp
      exact mem_of_pick hc
    have e2 : ¬ Beyond O t up y' x' := by
      have := precedes_eq hA hy.2.2 hx.2.2 hy.2.1 hx.2.1 (keyDir t up) hc
      have e : (keyDir t up).map (fun p => (colName E.D p.1, p.2)) = (keyCols t).map fun c => (colName E.D c, up) := by
        simp [keyDir]
      rw [e, hxy.2] at this
      unfold Beyond
      rw [← this]
      simp
    rcases beyond_total hO up (good_key hx.2.1) (good_key hy.2.1) with e | e | e
    · exact absurd e hk
    · exact e
    · exact absurd e e2

theorem page_cols {rows : List (Row V)} {w : Option (PCond V)} (hw : ∀ n ∈ pcols w, n ∈ t.columns.map (colName E.D)) (up : Bool) :
    hasCols (tableOf E.D t rows) (t.columns.map (colName E.D) ++
      (pcols w ++ ((keyCols t).map fun c => (colName E.D c, up)).map (·.1))) = true := by
  simp only [hasCols, List.all_eq_true, tableOf, List.contains_iff_mem, List.mem_append]
  rintro n (hn | hn | hn)
  · exact hn
  · exact hw n hn
  · rw [List.map_map] at hn
    obtain ⟨c, hc, rfl⟩ := List.mem_map.1 hn
    exact List.mem_map_of_mem (mem_of_pick hc)

/-- The rows of a page. -/
theorem exec_page {m : Map F X} {rows : List (Row V)} (hh : Holds E.enc E.D Ok t m rows) {σ : Sql.Store V}
    (hσ : σ (tableName E.D t) = some (tableOf E.D t rows)) (up : Bool) {w : Option (PCond V)}
    (hw : ∀ n ∈ pcols w, n ∈ t.columns.map (colName E.D)) {P : (F → X) → Prop}
    (hs : ∀ row s, Shows E Ok t m row s → (pageSelects K E.null w row = true ↔ P s)) (n : Nat) (zero : F → X) :
    ∃ l, Listed O t up m P l ∧
      rowsOf E t zero (execPage K E.null ⟨t.columns.map (colName E.D), tableName E.D t, w,
        (keyCols t).map fun c => (colName E.D c, up), some n⟩ σ) = .ok ((l.take n).map fun s => load t s zero) := by
  obtain ⟨l, hl, hlist⟩ := arranged h hA hO hh up hs
  refine ⟨l, hlist, ?_⟩
  have h1 := page_cols h hA hO (rows := rows) hw up
  have h2 := scan_all h (List.forall₂_take n hl) zero
  unfold execPage
  simp only [hσ, h1, Bool.true_eq_false, if_false, limitTo]
  unfold rowsOf
  have e : (tableOf E.D t rows).rows = rows := rfl
  rw [e]
  simp only [h2]

end

/-! ## One round -/

section
variable (h : Setup E t Ok)
include h

/-- The cursor is looked up. -/
theorem cursor_lookup {m : Map F X} {σ : Sql.Store V} (hk : Keeps E Ok t m σ) {v : F → X} (hv : Good Ok t v) :
    cursorOf E t true v σ = (m (keyOf t v)).map fun s => load t s v := by
  obtain ⟨rows, hσ, hh⟩ := hk
  have := (find_ok h hh hσ hv).1
  unfold cursorOf
  rw [this]
  simp only [if_true, act]
  cases e : m (keyOf t v) <;> rfl

omit h in
theorem load_field {s r : F → X} {c : GCol F} (hc : c ∈ t.columns) : load t s r c.field = s c.field := by
  have : c.field ∈ t.columns.map (·.field) := List.mem_map_of_mem hc
  simp [load, this]

omit h in
theorem load_key (s r : F → X) : keyOf t (load t s r) = keyOf t s := by
  rw [keyOf_eq_iff]
  exact fun c hc => load_field (mem_of_pick hc)

omit h in
theorem load_good {s : F → X} (hs : Good Ok t s) (r : F → X) : Good Ok t (load t s r) := fun c hc => by
  rw [load_field hc]; exact hs c hc

theorem page_hasKey : HasKey (pmdl E t) := (keyB_eq h.wf (keyCols_ne' h) (fun _ => E.null)).1

variable (hA : Agrees K E.null E.enc Ok t O) (hO : Ordered O Ok t) (hn : Spelled E.g E.D t)
include hA hO hn

/-- The query of a round that has a cursor and no condition. -/
theorem round_cursor {br : Brand} (hbr : (keyCols t).length = 1 ∨ br = .postgres) {m : Map F X} {σ : Sql.Store V}
    (hk : Keeps E Ok t m σ) {v : F → X} (hv : KeyGood Ok t v) (d : Pager.Dir) (p : Pager.PStmt V) (hp : p.where_ = none)
    (ho : p.orderBy = []) (zero : F → X) :
    ∃ s l, Pager.pageQuery E.g.style (pmdl E t) d p true (fun f => E.enc f (v f)) = .ok s ∧
      Listed O t (upOf d) m (From O t (upOf d) v) l ∧
      pageRows E br K t zero s σ = .ok ((l.take (p.limit + 1).toNat).map fun s => load t s zero) := by
  obtain ⟨rows, hσ, hh⟩ := hk
  obtain ⟨s, e1, e2⟩ := Pager.pageQuery_noOrder E.g.style (pmdl E t) (page_hasKey h) d p ho (by simp [hp]) true (fun f => E.enc f (v f))
  have hr := read_cursor h hn br d (fun f => E.enc f (v f)) (p.limit + 1).toNat
  have ho' : orderOf E br t d = some ((keyCols t).map fun c => (colName E.D c, upOf d)) := by
    unfold orderOf
    rw [if_neg]
    rintro ⟨i1, i2⟩
    rcases hbr with e | e
    · omega
    · exact i2 e
  have hcols : ∀ n ∈ pcols (some (cursorCond E d (fun f => E.enc f (v f)) (keyCols t))), n ∈ t.columns.map (colName E.D) := by
    intro n hn
    match e : keyCols t, keyCols_ne' h with
    | [c], _ =>
      rw [e] at hn
      simp only [cursorCond, pcols, Ast.cols, Pred.col, List.mem_singleton] at hn
      rw [hn]
      exact List.mem_map_of_mem (mem_of_pick (t := t) (is := keyPos t) (by show c ∈ keyCols t; simp [e]))
    | a :: b :: l, _ =>
      rw [e] at hn
      simp only [cursorCond, pcols] at hn
      obtain ⟨c, hc, rfl⟩ := List.mem_map.1 hn
      exact List.mem_map_of_mem (mem_of_pick (t := t) (is := keyPos t) (by show c ∈ keyCols t; rw [e]; exact hc))
  obtain ⟨l, hl, hx⟩ := exec_page h hA hO hh hσ (upOf d) hcols (P := From O t (upOf d) v)
    (fun row s hs => cursor_selects hO h hA hs.2.2 (good_key hs.2.1) hv d) (p.limit + 1).toNat zero
  refine ⟨s, l, e1, hl, ?_⟩
  have e3 : filterB p.where_ = [] := by rw [hp]; rfl
  rw [e3] at e2
  simp only [if_true, List.nil_append] at e2
  unfold pageRows
  rw [e2, Option.bind_some, hr, ho', Option.map_some]
  exact hx

/-- The query of a round that has a condition and no cursor. -/
theorem round_filter {br : Brand} (hbr : (keyCols t).length = 1 ∨ br = .postgres) {m : Map F X} {σ : Sql.Store V}
    (hk : Keeps E Ok t m σ) {c : Cond F X} (hc : c.Proper Ok t) (v : F → V) (d : Pager.Dir) (p : Pager.PStmt V)
    (hp : p.where_ = some (clause E c)) (ho : p.orderBy = []) (zero : F → X) :
    ∃ s l, Pager.pageQuery E.g.style (pmdl E t) d p false v = .ok s ∧
      Listed O t (upOf d) m (Meets O (some c)) l ∧
      pageRows E br K t zero s σ = .ok ((l.take (p.limit + 1).toNat).map fun s => load t s zero) := by
  obtain ⟨rows, hσ, hh⟩ := hk
  have hin : ∀ c', p.where_ = some c' → E.g.style = .numbered ∨ inNonempty c' = true := by
    intro c' hc'
    rw [hp] at hc'
    cases hc'
    exact .inr (inNonempty_clause c hc)
  obtain ⟨s, e1, e2⟩ := Pager.pageQuery_noOrder E.g.style (pmdl E t) (page_hasKey h) d p ho hin false v
  have hr := read_filter h hn br d hc (p.limit + 1).toNat
  have ho' : orderOf E br t d = some ((keyCols t).map fun c => (colName E.D c, upOf d)) := by
    unfold orderOf
    rw [if_neg]
    rintro ⟨i1, i2⟩
    rcases hbr with e | e
    · omega
    · exact i2 e
  obtain ⟨l, hl, hx⟩ := exec_page h hA hO hh hσ (upOf d) (w := some (.plain (ast E c))) (cols_cond c hc)
    (P := Meets O (some c))
    (fun row s hs => selects_iff hA hs.2.2 hs.2.1 (w := some c) (by intro c' e; cases e; exact hc)) (p.limit + 1).toNat zero
  refine ⟨s, l, e1, hl, ?_⟩
  have e3 : filterB p.where_ = meaning (clause E c) := by rw [hp]; rfl
  rw [e3] at e2
  simp only [Bool.false_eq_true, if_false, List.append_nil] at e2
  unfold pageRows
  rw [e2, Option.bind_some, hr, ho', Option.map_some]
  exact hx

omit hA hO in
/-- The database refuses the query. -/
theorem round_refused {br : Brand} {b : List (BSym V)}
    {s : Verif.Stmt V} (hb : Spec.bind E.g.style s.text s.args = some b) (hr : readPage br E.D b = none) (zero : F → X)
    (σ : Sql.Store V) : pageRows E br K t zero s σ = .failed := by
  unfold pageRows
  rw [hb, Option.bind_some, hr]
  rfl

end

end Verif.Store

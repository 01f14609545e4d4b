import Verif.Spec.Text
import Verif.Lemmas.Query

/-!
# Placeholders survive printing; printing with values
-/

namespace Verif.Spec

variable {V : Type}

theorem num_chars (n : Nat) : (Sym.num n).chars = '$' :: Nat.toDigits 10 n := by
  simp [Sym.chars]

/-- The first symbol is not a digit. -/
def NoDigit : Txt → Prop
  | .ch c :: _ => c.isDigit = false
  | _ => True

/-- Every ordinary character is different from the placeholder character, placeholders are of the
right kind, and no digit follows a numbered placeholder. -/
def Safe (st : Style) : Txt → Prop
  | [] => True
  | .ch c :: t => c ≠ special st ∧ Safe st t
  | .anon :: t => st = .anon ∧ Safe st t
  | .num _ :: t => st = .numbered ∧ NoDigit t ∧ Safe st t

theorem takeWhile_digits (l s : List Char) (h : ∀ c ∈ l, c.isDigit = true)
    (hs : ∀ c r, s = c :: r → c.isDigit = false) :
    (l ++ s).takeWhile Char.isDigit = l ∧ (l ++ s).dropWhile Char.isDigit = s := by
  induction l with
  | nil =>
    cases s with
    | nil => simp
    | cons c r => simp [hs c r rfl]
  | cons c l ih =>
    have := ih (fun x hx => h x (by simp [hx]))
    simp [h c (by simp), this.1, this.2]

theorem scan_render (st : Style) (t : Txt) (h : Safe st t) : scan st (renderTxt t) = t := by
  cases st with
  | anon =>
    show scanAnon (renderTxt t) = t
    induction t with
    | nil => rfl
    | cons s t ih =>
      cases s with
      | ch c =>
        have := ih h.2
        simp only [renderTxt, List.flatMap_cons, Sym.chars, List.cons_append, List.nil_append] at this ⊢
        rw [scanAnon, if_neg (show c ≠ '?' from h.1), this]
      | anon =>
        have := ih h.2
        simp only [renderTxt, List.flatMap_cons, Sym.chars, List.cons_append, List.nil_append] at this ⊢
        rw [scanAnon, if_pos rfl, this]
      | num n => exact absurd h.1 (by decide)
  | numbered =>
    show scanNum (renderTxt t) = t
    induction t with
    | nil => rw [renderTxt, List.flatMap_nil, scanNum]
    | cons s t ih =>
      cases s with
      | ch c =>
        have := ih h.2
        simp only [renderTxt, List.flatMap_cons, Sym.chars, List.cons_append, List.nil_append] at this ⊢
        rw [scanNum, if_neg (show c ≠ '$' from h.1), this]
      | anon => exact absurd h.1 (by decide)
      | num n =>
        have hr := ih h.2.2
        simp only [renderTxt, List.flatMap_cons, num_chars, List.cons_append] at hr ⊢
        rw [scanNum, if_pos rfl]
        have hd : ∀ c r, t.flatMap Sym.chars = c :: r → c.isDigit = false := by
          intro c r e
          match t, h.2.1, h.2.2, e with
          | .ch c' :: t, hn, _, e =>
            simp only [List.flatMap_cons, Sym.chars, List.cons_append, List.cons.injEq] at e
            rw [← e.1]; exact hn
          | .anon :: t, _, hs, _ => exact absurd hs.1 (by decide)
          | .num n :: t, _, _, e =>
            simp only [List.flatMap_cons, num_chars, List.cons_append, List.cons.injEq] at e
            rw [← e.1]; decide
        have hdig : ∀ c ∈ Nat.toDigits 10 n, c.isDigit = true := fun c hc =>
          Nat.isDigit_of_mem_toDigits (by decide) (by decide) hc
        obtain ⟨h1, h2⟩ := takeWhile_digits _ _ hdig hd
        rw [h1, h2, hr]
        cases hn : Nat.toDigits 10 n with
        | nil => exact absurd hn Nat.toDigits_ne_nil
        | cons d ds =>
          simp only
          rw [← hn, Nat.ofDigitChars_ten_toDigits]

/-! ### Format -/

theorem cut_head (pat : List Char) (p : Char) (pat' : List Char) (hp : pat = p :: pat') (c : Char)
    (s : List Char) (h : c ≠ p) :
    cut pat (c :: s) = (cut pat s).map fun (a, b) => (c :: a, b) := by
  subst hp
  rw [cut, if_neg]
  simp [List.isPrefixOf, Ne.symm h]

theorem cut_here (pat s : List Char) (h : pat ≠ []) : cut pat (pat ++ s) = some ([], s) := by
  cases pat with
  | nil => exact absurd rfl h
  | cons p pat =>
    rw [List.cons_append, cut, if_pos]
    · simp
    · rw [← List.cons_append, List.isPrefixOf_iff_prefix]; exact List.prefix_append _ _

theorem cut_none (pat : List Char) (p : Char) (pat' : List Char) (hp : pat = p :: pat')
    (s : List Char) (h : ∀ c ∈ s, c ≠ p) : cut pat s = none := by
  induction s with
  | nil => subst hp; simp [cut]
  | cons c s ih =>
    rw [cut_head pat p pat' hp c s (h c (by simp)), ih (fun x hx => h x (by simp [hx]))]
    rfl

theorem var_chars (st : Style) (i : Nat) : ∃ r, (st.var i).chars = special st :: r := by
  cases st with
  | anon => exact ⟨[], rfl⟩
  | numbered => exact ⟨_, num_chars i⟩

theorem formatLoop_ch (st : Style) (strf : V → List Char) (i : Nat) (args : List V) (c : Char)
    (s r : List Char) (h : c ≠ special st) (hr : formatLoop st strf i args s = .ok r) :
    formatLoop st strf i args (c :: s) = .ok (c :: r) := by
  obtain ⟨p, hp⟩ := var_chars st i
  rw [formatLoop] at hr ⊢
  rw [cut_head _ _ _ hp c s h]
  cases hc : cut (st.var i).chars s with
  | none => rw [hc] at hr; simp_all
  | some ab =>
    obtain ⟨a, b⟩ := ab
    rw [hc] at hr
    cases args with
    | nil => simp at hr
    | cons v args =>
      simp only [Option.map_some, Res.bind_eq_ok] at hr ⊢
      obtain ⟨z, hz, hr⟩ := hr
      simp only [Res.ok.injEq] at hr
      exact ⟨z, hz, by simp [← hr]⟩

theorem formatLoop_var (st : Style) (strf : V → List Char) (i : Nat) (v : V) (args : List V)
    (s r : List Char) (hr : formatLoop st strf (i + 1) args s = .ok r) :
    formatLoop st strf i (v :: args) ((st.var i).chars ++ s) = .ok (strf v ++ r) := by
  obtain ⟨p, hp⟩ := var_chars st i
  rw [formatLoop, cut_here _ _ (by rw [hp]; simp)]
  simp only [hr, Res.ok_bind, List.nil_append]

theorem formatLoop_nil (st : Style) (strf : V → List Char) (i : Nat) (args : List V) :
    formatLoop st strf i args [] = .ok [] := by
  obtain ⟨p, hp⟩ := var_chars st i
  rw [formatLoop, hp, cut, if_neg (by simp)]

theorem format_anon (strf : V → List Char) (t : Txt) (args : List V) (b : List (BSym V)) (i : Nat)
    (hs : Safe .anon t) (h : bindAnon t args = some b) :
    formatLoop .anon strf i args (renderTxt t) = .ok (showB strf b) := by
  induction t generalizing args b i with
  | nil =>
    cases args with
    | nil =>
      simp only [bindAnon, Option.some.injEq] at h
      subst h
      exact formatLoop_nil ..
    | cons => simp [bindAnon] at h
  | cons s t ih =>
    cases s with
    | ch c =>
      simp only [bindAnon, Option.map_eq_some_iff] at h
      obtain ⟨z, hz, rfl⟩ := h
      exact formatLoop_ch _ _ _ _ _ _ _ hs.1 (ih _ _ _ hs.2 hz)
    | anon =>
      cases args with
      | nil => simp [bindAnon] at h
      | cons v args =>
        simp only [bindAnon, Option.map_eq_some_iff] at h
        obtain ⟨z, hz, rfl⟩ := h
        exact formatLoop_var .anon strf i v args _ _ (ih _ _ _ hs.2 hz)
    | num n => simp [bindAnon] at h

theorem format_num (strf : V → List Char) (t : Txt) (pre args : List V) (b : List (BSym V))
    (hs : Safe .numbered t) (hn : nums t = List.range' (pre.length + 1) args.length)
    (h : substNum (pre ++ args) t = some b) :
    formatLoop .numbered strf (pre.length + 1) args (renderTxt t) = .ok (showB strf b) := by
  induction t generalizing pre args b with
  | nil =>
    simp only [substNum, Option.some.injEq] at h
    subst h
    exact formatLoop_nil ..
  | cons s t ih =>
    cases s with
    | ch c =>
      simp only [substNum, Option.map_eq_some_iff] at h
      obtain ⟨z, hz, rfl⟩ := h
      exact formatLoop_ch _ _ _ _ _ _ _ hs.1 (ih _ _ _ hs.2 hn hz)
    | anon => simp [substNum] at h
    | num n =>
      cases args with
      | nil => simp [nums] at hn
      | cons v args =>
        simp only [nums, List.length_cons, List.range'_succ, List.cons.injEq] at hn
        obtain ⟨rfl, hn⟩ := hn
        simp only [substNum] at h
        have hv : (pre ++ v :: args)[pre.length]? = some v := by simp
        rw [hv] at h
        cases hz : substNum (pre ++ v :: args) t with
        | none => simp [hz] at h
        | some z =>
          simp only [hz, Option.some.injEq] at h
          subst h
          have := ih (pre ++ [v]) args z hs.2.2 (by simpa using hn) (by simpa using hz)
          refine formatLoop_var .numbered strf _ v args _ _ ?_
          rw [List.length_append, List.length_singleton] at this
          exact this

/-- `Format` on an aligned statement. -/
theorem format_aligned (st : Style) (strf : V → List Char) (s : Stmt V) (b : List (BSym V))
    (hs : Safe st s.text) (h : AlignedS st s b) : s.format st strf = .ok (showB strf b) := by
  cases st with
  | anon => exact format_anon strf _ _ _ _ hs h.1
  | numbered =>
    have h1 := h.1
    simp only [bind, bindNum] at h1
    split at h1
    · exact format_num strf s.text [] s.args b hs (by simpa using (h.2 rfl).2) (by simpa using h1)
    · cases h1

/-! ### Safety of assembled texts -/

/-- Text that does not end with a placeholder. -/
def EndsCh (t : Txt) : Prop := ∀ u s, t = u ++ [s] → ∃ c, s = .ch c

theorem safe_append_left (st : Style) (t u : Txt) (ht : Safe st t) (hu : Safe st u)
    (h : NoDigit u) : Safe st (t ++ u) := by
  induction t with
  | nil => exact hu
  | cons s t ih =>
    cases s with
    | ch c => exact ⟨ht.1, ih ht.2⟩
    | anon => exact ⟨ht.1, ih ht.2⟩
    | num n =>
      refine ⟨ht.1, ?_, ih ht.2.2⟩
      cases t with
      | nil => exact h
      | cons s' t' =>
        have := ht.2.1
        cases s' with
        | ch c => exact this
        | anon => trivial
        | num n => trivial

theorem safe_append_ends (st : Style) (t u : Txt) (ht : Safe st t) (hu : Safe st u)
    (h : EndsCh t) : Safe st (t ++ u) := by
  induction t with
  | nil => exact hu
  | cons s t ih =>
    have hend : t ≠ [] → EndsCh t := fun _ v w e => h (s :: v) w (by simp [e])
    have ih' : Safe st t → Safe st (t ++ u) := fun ht' => by
      cases t with
      | nil => exact hu
      | cons s' t' => exact ih ht' (hend (by simp))
    cases s with
    | ch c => exact ⟨ht.1, ih' ht.2⟩
    | anon => exact ⟨ht.1, ih' ht.2⟩
    | num n =>
      refine ⟨ht.1, ?_, ih' ht.2.2⟩
      cases t with
      | nil =>
        obtain ⟨c, hc⟩ := h [] (.num n) rfl
        cases hc
      | cons s' t' =>
        have := ht.2.1
        cases s' with
        | ch c => exact this
        | anon => trivial
        | num n => trivial

theorem safe_tx (st : Style) (x : String) (h : CleanStr st x) : Safe st (tx x) := by
  unfold tx
  revert h
  unfold CleanStr
  generalize x.toList = l
  intro h
  induction l with
  | nil => trivial
  | cons c l ih => exact ⟨h c (by simp), ih (fun d hd => h d (by simp [hd]))⟩

theorem endsCh_append_tx (t : Txt) (x : String) (hx : x.toList ≠ []) : EndsCh (t ++ tx x) := by
  intro u s e
  have hl : (tx x) ≠ [] := by simpa [tx] using hx
  have : s ∈ tx x := by
    have h1 : (t ++ tx x).getLast? = some s := by rw [e]; simp
    rw [List.getLast?_append, List.getLast?_eq_getLast_of_ne_nil hl] at h1
    simp only [Option.some_or, Option.some.injEq] at h1
    rw [← h1]; exact List.getLast_mem hl
  simp only [tx, List.mem_map] at this
  obtain ⟨c, _, rfl⟩ := this
  exact ⟨c, rfl⟩

theorem cleanLit (st : Style) (x : String) (h : x.toList.all (fun c => c ≠ '?' ∧ c ≠ '$') = true) :
    CleanStr st x := by
  intro c hc
  have := List.all_eq_true.1 h c hc
  simp only [Bool.decide_and, decide_not, Bool.and_eq_true, Bool.not_eq_true', decide_eq_false_iff_not] at this
  cases st
  · exact this.1
  · exact this.2

theorem CleanStr.append {st : Style} {x y : String} (hx : CleanStr st x) (hy : CleanStr st y) :
    CleanStr st (x ++ y) := by
  intro c hc
  rw [String.toList_append, List.mem_append] at hc
  exact hc.elim (hx c) (hy c)

theorem safe_var (st : Style) (n : Nat) : Safe st [st.var n] := by
  cases st <;> simp [Style.var, Safe, NoDigit]

theorem noDigit_var (st : Style) (n : Nat) (t : Txt) : NoDigit (st.var n :: t) := by
  cases st <;> trivial

theorem noDigit_tx (x : String) (c : Char) (h : x.toList.head? = some c) (hc : c.isDigit = false)
    (t : Txt) : NoDigit (tx x ++ t) := by
  cases hs : x.toList with
  | nil => simp [hs] at h
  | cons d l =>
    have : d = c := by simpa [hs] using h
    subst this
    simpa [tx, hs, NoDigit] using hc

theorem safe_snoc_lit (st : Style) (t : Txt) (x : String) (c : Char) (ht : Safe st t)
    (hx : CleanStr st x) (h : x.toList.head? = some c) (hc : c.isDigit = false) :
    Safe st (t ++ tx x) :=
  safe_append_left st t _ ht (safe_tx st x hx) (by simpa using noDigit_tx x c h hc [])

theorem safe_snoc_var (st : Style) (t : Txt) (n : Nat) (ht : Safe st t) :
    Safe st (t ++ [st.var n]) :=
  safe_append_left st t _ ht (safe_var st n) (noDigit_var st n [])

theorem safe_varsLoop (i n : Nat) : Safe .numbered (Stmt.varsLoop i n) := by
  induction n generalizing i with
  | zero => trivial
  | succ n ih =>
    rw [Stmt.varsLoop]
    split
    · exact ⟨rfl, noDigit_tx "," ',' rfl rfl _, by decide, ih (i + 1)⟩
    · have : n = 0 := by omega
      subst this
      exact ⟨rfl, trivial, trivial⟩

theorem noDigit_varsLoop (i n : Nat) : NoDigit (Stmt.varsLoop i n) := by
  cases n with
  | zero => trivial
  | succ n => rw [Stmt.varsLoop]; split <;> trivial

theorem safe_repeat (n : Nat) : Safe .anon (Stmt.repeatVar n) := by
  induction n with
  | zero => trivial
  | succ n ih => exact ⟨by decide, rfl, ih⟩

theorem safe_vars {st : Style} {s s' : Stmt V} {vs : List V} {p : Txt}
    (h : s.vars st vs = .ok (s', p)) : s'.text = s.text ∧ Safe st p := by
  cases st with
  | anon =>
    simp only [Stmt.vars] at h
    cases vs with
    | nil => simp [Stmt.repeatVar] at h
    | cons v vs =>
      simp only [List.length_cons, Stmt.repeatVar] at h
      change (match Sym.ch ',' :: .anon :: Stmt.repeatVar vs.length with
        | [] => Res.panic | _ :: t => Res.ok (_, tx "(" ++ t ++ tx ")")) = _ at h
      simp only [Res.ok.injEq, Prod.mk.injEq] at h
      obtain ⟨rfl, rfl⟩ := h
      refine ⟨rfl, ?_⟩
      refine safe_snoc_lit _ _ ")" ')' ?_ (cleanLit _ _ (by decide)) rfl rfl
      exact safe_append_left _ _ _ (safe_tx _ _ (cleanLit _ _ (by decide)))
        ⟨rfl, safe_repeat _⟩ trivial
  | numbered =>
    simp only [Stmt.vars, Res.ok.injEq, Prod.mk.injEq] at h
    obtain ⟨rfl, rfl⟩ := h
    refine ⟨rfl, ?_⟩
    refine safe_snoc_lit _ _ ")" ')' ?_ (cleanLit _ _ (by decide)) rfl rfl
    exact safe_append_left _ _ _ (safe_tx _ _ (cleanLit _ _ (by decide)))
      (safe_varsLoop _ _) (noDigit_varsLoop _ _)

/-- Texts of operators and keywords are clean and start with a blank. -/
theorem safe_name_kw (st : Style) (t : Txt) (n k : String) (ht : Safe st t) (he : EndsCh t)
    (hn : CleanStr st n) (hk : CleanStr st k) (hb : k.toList.head? = some ' ') :
    Safe st (t ++ (tx n ++ tx k)) := by
  rw [← List.append_assoc]
  exact safe_snoc_lit st _ k ' ' (safe_append_ends st t _ ht (safe_tx st n hn) he) hk hb rfl

mutual
theorem run_safe (st : Style) : (c : Clause V) → (s s' : Stmt V) → Safe st s.text → EndsCh s.text →
    (∀ n ∈ names c, CleanStr st n) → c.run st s = .ok s' → Safe st s'.text
  | .and cs, s, s', hs, he, hn, hr => by
    rw [Clause.run] at hr
    exact group_safe st " AND " (cleanLit _ _ (by decide)) rfl cs s s' hs he
      (by simpa [names] using hn) hr
  | .or cs, s, s', hs, he, hn, hr => by
    rw [Clause.run] at hr
    exact group_safe st " OR " (cleanLit _ _ (by decide)) rfl cs s s' hs he
      (by simpa [names] using hn) hr
  | .cmp op c v, s, s', hs, he, hn, hr => by
    simp only [Clause.run, Stmt.var, Res.ok.injEq] at hr
    subst hr
    simp only [Stmt.write]
    rw [← List.append_assoc]
    refine safe_snoc_var _ _ _ (safe_name_kw st _ _ _ hs he (hn _ (by simp [names])) ?_ ?_)
    · cases op <;> exact cleanLit _ _ (by decide)
    · cases op <;> rfl
  | .isIn neg c vs, s, s', hs, he, hn, hr => by
    simp only [Clause.run, Res.bind_eq_ok] at hr
    obtain ⟨⟨s1, p⟩, hv, hr⟩ := hr
    simp only [Res.ok.injEq] at hr
    subst hr
    obtain ⟨h1, h2⟩ := safe_vars hv
    simp only [Stmt.write, h1]
    rw [← List.append_assoc]
    refine safe_append_ends _ _ _ (safe_name_kw st _ _ _ hs he (hn _ (by simp [names])) ?_ ?_) h2 ?_
    · cases neg <;> exact cleanLit _ _ (by decide)
    · cases neg <;> rfl
    · rw [← List.append_assoc]
      exact endsCh_append_tx _ _ (by cases neg <;> decide)
  | .null neg c, s, s', hs, he, hn, hr => by
    simp only [Clause.run, Res.ok.injEq] at hr
    subst hr
    refine safe_name_kw st _ _ _ hs he (hn _ (by simp [names])) ?_ ?_
    · cases neg <;> exact cleanLit _ _ (by decide)
    · cases neg <;> rfl
  | .between neg c x y, s, s', hs, he, hn, hr => by
    simp only [Clause.run, Stmt.var, Res.ok.injEq] at hr
    subst hr
    simp only [Stmt.write]
    rw [← List.append_assoc, ← List.append_assoc, ← List.append_assoc]
    refine safe_snoc_var _ _ _ (safe_snoc_lit _ _ " AND " ' ' (safe_snoc_var _ _ _ ?_)
      (cleanLit _ _ (by decide)) rfl rfl)
    refine safe_name_kw st _ _ _ hs he (hn _ (by simp [names])) ?_ ?_
    · cases neg <;> exact cleanLit _ _ (by decide)
    · cases neg <;> rfl

theorem group_safe (st : Style) (sep : String) (hc : CleanStr st sep)
    (hb : sep.toList.head? = some ' ') : (cs : List (Clause V)) → (s s' : Stmt V) →
    Safe st s.text → EndsCh s.text → (∀ n ∈ namesL cs, CleanStr st n) →
    runGroup st sep cs s = .ok s' → Safe st s'.text
  | [], s, s', hs, he, hn, hr => by
    simp only [runGroup, Res.ok.injEq] at hr
    exact hr ▸ hs
  | c :: cs, s, s', hs, he, hn, hr => by
    simp only [runGroup, Res.bind_eq_ok] at hr
    obtain ⟨s1, h1, s2, h2, hr⟩ := hr
    simp only [Res.ok.injEq] at hr
    subst hr
    have a1 := run_safe st c (s.write (tx "(")) s1
      (safe_snoc_lit _ _ "(" '(' hs (cleanLit _ _ (by decide)) rfl rfl)
      (endsCh_append_tx _ _ (by decide)) (fun n hm => hn n (by simp [namesL, hm])) h1
    have a2 := rest_safe st sep hc hb cs s1 s2 a1 (fun n hm => hn n (by simp [namesL, hm])) h2
    exact safe_snoc_lit _ _ ")" ')' a2 (cleanLit _ _ (by decide)) rfl rfl

theorem rest_safe (st : Style) (sep : String) (hc : CleanStr st sep)
    (hb : sep.toList.head? = some ' ') : (cs : List (Clause V)) → (s s' : Stmt V) →
    Safe st s.text → (∀ n ∈ namesL cs, CleanStr st n) →
    runRest st sep cs s = .ok s' → Safe st s'.text
  | [], s, s', hs, hn, hr => by
    simp only [runRest, Res.ok.injEq] at hr
    exact hr ▸ hs
  | c :: cs, s, s', hs, hn, hr => by
    simp only [runRest, Res.bind_eq_ok] at hr
    obtain ⟨s1, h1, hr⟩ := hr
    have a1 := run_safe st c (s.write (tx sep)) s1 (safe_snoc_lit _ _ sep ' ' hs hc hb rfl)
      (endsCh_append_tx _ _ (by intro h; simp [h] at hb))
      (fun n hm => hn n (by simp [namesL, hm])) h1
    exact rest_safe st sep hc hb cs s1 s' a1 (fun n hm => hn n (by simp [namesL, hm])) hr
end

/-! ### Whole statements -/

theorem clean_joinStr (st : Style) (l : List String) (h : ∀ x ∈ l, CleanStr st x) :
    CleanStr st (joinStr "," l) := by
  induction l with
  | nil => exact cleanLit _ _ (by decide)
  | cons x l ih =>
    cases l with
    | nil => exact h x (by simp)
    | cons y r =>
      rw [joinStr]
      exact ((h x (by simp)).append (cleanLit _ _ (by decide))).append
        (ih (fun z hz => h z (by simp [hz])))

theorem clean_nat (st : Style) (n : Nat) : CleanStr st (toString n) := by
  intro c hc
  rw [Nat.toString_eq_ofList_toDigits, String.toList_ofList] at hc
  have := Nat.isDigit_of_mem_toDigits (by decide) (by decide) hc
  rintro rfl
  cases st <;> exact absurd this (by decide)

theorem clean_dbTable {st : Style} {m : ModelInfo} (hm : CleanModel st m) (t : String)
    (ht : CleanStr st t) : CleanStr st (dbTable m t) := by
  unfold dbTable
  cases hd : m.database with
  | none => exact ht
  | some d => exact ((hm.2.1 d hd).append (cleanLit _ _ (by decide))).append ht

theorem clean_dbName {st : Style} {m : ModelInfo} (hm : CleanModel st m) : CleanStr st (dbName m) := by
  unfold dbName
  cases hd : m.database with
  | none => exact cleanLit _ _ (by decide)
  | some d => exact (hm.2.1 d hd).append (cleanLit _ _ (by decide))

/-- A statement text that is safe and does not end with a placeholder. -/
def SafeE (st : Style) (s : Stmt V) : Prop := Safe st s.text ∧ EndsCh s.text

theorem endsCh_append {t : Txt} (h : EndsCh t) (x : String) : EndsCh (t ++ tx x) := by
  cases hx : x.toList with
  | nil => simpa [tx, hx] using h
  | cons c l => exact endsCh_append_tx _ _ (by simp [hx])

theorem safeE_writeS {st : Style} {s : Stmt V} (h : SafeE st s) (x : String) (hx : CleanStr st x) :
    SafeE st (s.writeS x) :=
  ⟨safe_append_ends _ _ _ h.1 (safe_tx _ _ hx) h.2, endsCh_append h.2 x⟩

theorem safeE_init (st : Style) : SafeE st ({} : Stmt V) :=
  ⟨trivial, by intro u s e; simp at e⟩

/-- Writing a string that starts with a non-digit is always safe. -/
theorem safeE_writeLit {st : Style} {s : Stmt V} (h : Safe st s.text) (x y : String)
    (hx : CleanStr st x) (hy : CleanStr st y) (c : Char) (hh : x.toList.head? = some c)
    (hc : c.isDigit = false) : SafeE st (s.writeS (x ++ y)) := by
  have h1 : SafeE st (s.writeS x) :=
    ⟨safe_snoc_lit _ _ x c h hx hh hc, endsCh_append_tx _ _ (by intro e; simp [e] at hh)⟩
  have h2 := safeE_writeS h1 y hy
  have e : (s.writeS (x ++ y)) = (s.writeS x).writeS y := by simp [Stmt.writeS, Stmt.write]
  rw [e]; exact h2

theorem safeE_select {st : Style} {s : Stmt V} (h : SafeE st s) (m : ModelInfo) (sel : List String)
    (hm : CleanModel st m) (hsel : ∀ x ∈ sel, CleanStr st x) : SafeE st (s.selectList m sel) := by
  unfold Stmt.selectList
  split
  · exact safeE_writeS h _ (clean_joinStr _ _ hsel)
  · cases hc : m.columns with
    | none => exact safeE_writeS h _ (cleanLit _ _ (by decide))
    | some l =>
      refine safeE_writeS h _ (clean_joinStr _ _ ?_)
      unfold tableColumns
      cases hs : m.sqlColumns with
      | none => exact hm.2.2.1 l hc
      | some l' => exact hm.2.2.2 l' hs

theorem safeE_from {st : Style} {s s' : Stmt V} (h : SafeE st s) (m : ModelInfo) (f : String)
    (hm : CleanModel st m) (hf : CleanStr st f) (hr : s.fromClause m f = .ok s') : SafeE st s' := by
  unfold Stmt.fromClause at hr
  split at hr
  · simp only [Res.ok.injEq] at hr
    subst hr
    exact safeE_writeS h _ (((cleanLit _ _ (by decide)).append (clean_dbName hm)).append hf)
  · cases ht : m.table with
    | none => simp [ht] at hr
    | some t =>
      simp only [ht, Res.ok.injEq] at hr
      subst hr
      exact safeE_writeS h _ ((cleanLit _ _ (by decide)).append (clean_dbTable hm t (hm.1 t ht)))

theorem safe_where {st : Style} {s s' : Stmt V} (h : Safe st s.text) (w : Option (Clause V))
    (hw : ∀ c, w = some c → ∀ n ∈ names c, CleanStr st n) (hr : s.whereClause st w = .ok s') :
    Safe st s'.text := by
  cases w with
  | none =>
    simp only [Stmt.whereClause, Res.ok.injEq] at hr
    exact hr ▸ h
  | some c =>
    have h1 := safeE_writeLit h " WHERE " "" (cleanLit _ _ (by decide)) (cleanLit _ _ (by decide)) ' ' rfl rfl
    exact run_safe st c _ s' h1.1 h1.2 (hw c rfl) hr

theorem safe_groupLoop {st : Style} {s : Stmt V} (h : Safe st s.text) (gs : List String)
    (hg : ∀ g ∈ gs, CleanStr st g) : Safe st (s.groupLoop gs).text := by
  induction gs generalizing s with
  | nil => exact h
  | cons g gs ih =>
    refine ih ?_ (fun x hx => hg x (by simp [hx]))
    exact (safeE_writeLit h "," g (cleanLit _ _ (by decide)) (hg g (by simp)) ',' rfl rfl).1

theorem safe_groupBy {st : Style} {s : Stmt V} (h : Safe st s.text) (gs : List String)
    (hg : ∀ g ∈ gs, CleanStr st g) : Safe st (s.groupByClause gs).text := by
  cases gs with
  | nil => exact h
  | cons g gs =>
    refine safe_groupLoop ?_ gs (fun x hx => hg x (by simp [hx]))
    exact (safeE_writeLit h " GROUP BY " g (cleanLit _ _ (by decide)) (hg g (by simp)) ' ' rfl rfl).1

theorem safe_orderLoop {st : Style} {s : Stmt V} (h : Safe st s.text) (os : List Order)
    (hg : ∀ o ∈ os, CleanStr st o.col) : Safe st (s.orderLoop os).text := by
  induction os generalizing s with
  | nil => exact h
  | cons o os ih =>
    refine ih ?_ (fun x hx => hg x (by simp [hx]))
    have ho := hg o (by simp)
    split
    · have := (safeE_writeLit h "," (o.col ++ " ASC") (cleanLit _ _ (by decide))
        (ho.append (cleanLit _ _ (by decide))) ',' rfl rfl).1
      rwa [← String.append_assoc] at this
    · have := (safeE_writeLit h "," (o.col ++ " DESC") (cleanLit _ _ (by decide))
        (ho.append (cleanLit _ _ (by decide))) ',' rfl rfl).1
      rwa [← String.append_assoc] at this

theorem safe_orderBy {st : Style} {s : Stmt V} (h : Safe st s.text) (os : List Order)
    (hg : ∀ o ∈ os, CleanStr st o.col) : Safe st (s.orderByClause os).text := by
  cases os with
  | nil => exact h
  | cons o os =>
    refine safe_orderLoop ?_ os (fun x hx => hg x (by simp [hx]))
    have ho := hg o (by simp)
    split
    · exact (safeE_writeLit h " ORDER BY " o.col (cleanLit _ _ (by decide)) ho ' ' rfl rfl).1
    · have := (safeE_writeLit h " ORDER BY " (o.col ++ " DESC") (cleanLit _ _ (by decide))
        (ho.append (cleanLit _ _ (by decide))) ' ' rfl rfl).1
      rwa [← String.append_assoc] at this

theorem safe_limit {st : Style} {s : Stmt V} (h : Safe st s.text) (n : Nat) :
    Safe st (s.limitClause n).text := by
  unfold Stmt.limitClause
  split
  · exact (safeE_writeLit h " LIMIT " _ (cleanLit _ _ (by decide)) (clean_nat st n) ' ' rfl rfl).1
  · exact h

theorem safe_offset {st : Style} {s : Stmt V} (h : Safe st s.text) (n : Nat) :
    Safe st (s.offsetClause n).text := by
  unfold Stmt.offsetClause
  split
  · exact (safeE_writeLit h " OFFSET " _ (cleanLit _ _ (by decide)) (clean_nat st n) ' ' rfl rfl).1
  · exact h

theorem safe_lit {st : Style} {s : Stmt V} (h : Safe st s.text) (x : String)
    (hx : x.toList.all (fun c => c ≠ '?' ∧ c ≠ '$') = true) (c : Char)
    (hh : x.toList.head? = some c) (hc : c.isDigit = false) : Safe st (s.writeS x).text :=
  safe_snoc_lit _ _ x c h (cleanLit _ _ hx) hh hc

theorem queryStmt_safe (st : Style) (m : ModelInfo) (q : Select V) (s : Stmt V)
    (hm : CleanModel st m) (hq : CleanSelect st q) (h : queryStmt st m q = .ok s) :
    Safe st s.text := by
  simp only [queryStmt, Res.bind_eq_ok] at h
  obtain ⟨s1, h1, s2, h2, h⟩ := h
  simp only [Res.ok.injEq] at h
  subst h
  have a0 := safeE_select (safeE_writeS (safeE_init (V := V) st) "SELECT " (cleanLit _ _ (by decide)))
    m q.select hm hq.1
  have a1 := safeE_from a0 m _ hm hq.2.1 h1
  have a2 := safe_where a1.1 _ hq.2.2.1 h2
  exact safe_lit (safe_offset (safe_limit (safe_orderBy (safe_groupBy a2 _ hq.2.2.2.1) _ hq.2.2.2.2) _) _)
    ";" (by decide) ';' rfl rfl

theorem queryOneStmt_safe (st : Style) (m : ModelInfo) (q : Select V) (s : Stmt V)
    (hm : CleanModel st m) (hq : CleanSelect st q) (h : queryOneStmt st m q = .ok s) :
    Safe st s.text := by
  simp only [queryOneStmt, Res.bind_eq_ok] at h
  obtain ⟨s1, h1, s2, h2, h⟩ := h
  simp only [Res.ok.injEq] at h
  subst h
  have a0 := safeE_select (safeE_writeS (safeE_init (V := V) st) "SELECT " (cleanLit _ _ (by decide)))
    m q.select hm hq.1
  have a1 := safeE_from a0 m _ hm hq.2.1 h1
  have a2 := safe_where a1.1 _ hq.2.2.1 h2
  exact safe_lit (safe_orderBy (safe_groupBy a2 _ hq.2.2.2.1) _ hq.2.2.2.2)
    " LIMIT 1;" (by decide) ' ' rfl rfl

theorem safe_setItem {st : Style} {s : Stmt V} (h : SafeE st s) (c : SetItem V)
    (hc : CleanStr st c.col.name) : Safe st (c.run st s).text := by
  simp only [SetItem.run, Stmt.var, Stmt.write]
  rw [← List.append_assoc]
  exact safe_snoc_var _ _ _ (safe_name_kw st _ _ _ h.1 h.2 hc (cleanLit _ _ (by decide)) rfl)

theorem safe_setLoop {st : Style} {s : Stmt V} (h : Safe st s.text) (cs : List (SetItem V))
    (hc : ∀ c ∈ cs, CleanStr st c.col.name) : Safe st (s.setLoop st cs).text := by
  induction cs generalizing s with
  | nil => exact h
  | cons c cs ih =>
    refine ih ?_ (fun x hx => hc x (by simp [hx]))
    exact safe_setItem (safeE_writeLit h "," "" (cleanLit _ _ (by decide)) (cleanLit _ _ (by decide))
      ',' rfl rfl) c (hc c (by simp))

theorem safe_set {st : Style} {s : Stmt V} (h : Safe st s.text) (cs : List (SetItem V))
    (hc : ∀ c ∈ cs, CleanStr st c.col.name) : Safe st (s.setClause st cs).text := by
  cases cs with
  | nil => exact h
  | cons c cs =>
    refine safe_setLoop ?_ cs (fun x hx => hc x (by simp [hx]))
    exact safe_setItem (safeE_writeLit h " SET " "" (cleanLit _ _ (by decide)) (cleanLit _ _ (by decide))
      ' ' rfl rfl) c (hc c (by simp))

theorem safe_execLimit {st : Style} {s : Stmt V} (h : Safe st s.text) (n : Nat) :
    Safe st (execLimit st n s).text := by
  cases st with
  | anon => exact safe_limit h n
  | numbered => exact h

theorem execUpdate_safe (st : Style) (m : ModelInfo) (u : Update V) (s : Stmt V)
    (hm : CleanModel st m) (hu : CleanUpdate st u) (h : execUpdate st m u = .ok s) :
    Safe st s.text := by
  simp only [execUpdate, Res.bind_eq_ok] at h
  obtain ⟨s2, h2, h⟩ := h
  simp only [Res.ok.injEq] at h
  subst h
  refine safe_lit (safe_execLimit (safe_orderBy (safe_where (safe_set ?_ _ hu.2.1) _ hu.2.2.1 h2)
    _ hu.2.2.2) _) ";" (by decide) ';' rfl rfl
  cases ht : m.table with
  | none =>
    exact (safeE_writeS (safeE_init st) _ (((cleanLit _ _ (by decide)).append (clean_dbName hm)).append hu.1)).1
  | some t =>
    exact (safeE_writeS (safeE_init st) _ ((cleanLit _ _ (by decide)).append
      (clean_dbTable hm t (hm.1 t ht)))).1

theorem execDelete_safe (st : Style) (m : ModelInfo) (u : Delete V) (s : Stmt V)
    (hm : CleanModel st m) (hu : CleanDelete st u) (h : execDelete st m u = .ok s) :
    Safe st s.text := by
  simp only [execDelete, Res.bind_eq_ok] at h
  obtain ⟨s2, h2, h⟩ := h
  simp only [Res.ok.injEq] at h
  subst h
  refine safe_lit (safe_execLimit (safe_orderBy (safe_where ?_ _ hu.2.1 h2)
    _ hu.2.2) _) ";" (by decide) ';' rfl rfl
  cases ht : m.table with
  | none =>
    exact (safeE_writeS (safeE_init st) _ (((cleanLit _ _ (by decide)).append (clean_dbName hm)).append hu.1)).1
  | some t =>
    exact (safeE_writeS (safeE_init st) _ ((cleanLit _ _ (by decide)).append
      (clean_dbTable hm t (hm.1 t ht)))).1

end Verif.Spec

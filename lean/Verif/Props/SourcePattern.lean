import Verif.Props.Source

/-!
# C53: which files a pattern selects
-/

namespace Verif.Props

open Verif Verif.Source Verif.Source.Spec

theorem atom_plain {c : Char} (h : PlainChar c) : atom c = some (if c = '/' then .sep else .chr c) := by
  unfold PlainChar at h
  have hm : isMeta c = false := by
    unfold isMeta
    simp only [List.mem_cons, not_or, List.not_mem_nil, not_false_eq_true, and_true] at h ⊢
    simp [h]
  simp only [List.mem_cons, not_or, List.not_mem_nil, not_false_eq_true, and_true] at h
  unfold atom
  rw [hm, if_neg (by simp), if_neg (by simp [h])]
  by_cases hc : c = '/'
  · simp [hc]
  · simp [hc, h]

theorem plain_ne_plus {c : Char} (h : PlainChar c) : c ≠ '+' := by
  rintro rfl; revert h; decide

theorem plain_ne_star {c : Char} (h : PlainChar c) : c ≠ '*' := by
  rintro rfl; revert h; decide

/-- Plain texts are expressions for themselves. -/
theorem compileRest_plain {s : Source.Text} (h : ∀ c ∈ s, PlainChar c) : ∃ r, compileRest s = .re r ∧ r.Lang s := by
  induction s with
  | nil => exact ⟨.eps, rfl, rfl⟩
  | cons c s ih =>
    obtain ⟨r, hr, hl⟩ := ih fun d hd => h d (List.mem_cons_of_mem _ hd)
    have hc := h c (List.mem_cons_self ..)
    have hh : s.head? ≠ some '+' := by
      cases s with
      | nil => simp
      | cons d s => simpa using plain_ne_plus (h d (by simp))
    rw [compileRest, if_neg (plain_ne_plus hc), atom_plain hc]
    simp only [hr, if_neg hh]
    rw [if_neg fun e => hh e.1]
    refine ⟨_, rfl, [c], s, rfl, ?_, hl⟩
    by_cases e : c = '/'
    · rw [if_pos e, e]; exact Re.sep_iff.2 (.inl rfl)
    · rw [if_neg e]; exact Re.chr_iff.2 rfl

theorem compile_plain {s : Source.Text} (h : ∀ c ∈ s, PlainChar c) : ∃ r, compile s = .re r ∧ r.Lang s := by
  unfold compile
  rw [if_neg]
  · exact compileRest_plain h
  · cases s with
    | nil => simp
    | cons d s => simpa using plain_ne_plus (h d (by simp))

/-- `[\\/].*\.go`. -/
def goFiles : Re := .cat .sep (.cat .dots (.cat (.chr '.') (.cat (.chr 'g') (.cat (.chr 'o') .eps))))

theorem compile_goFiles : compile "/*.go".toList = .re goFiles := rfl

theorem goFiles_iff {w : Source.Text} : goFiles.Lang w ↔ ∃ c v, (c = '/' ∨ c = '\\') ∧ '\n' ∉ v ∧ w = c :: (v ++ ".go".toList) := by
  constructor
  · rintro ⟨a, _, rfl, ha, v, _, rfl, hv, g1, _, rfl, h1, g2, _, rfl, h2, g3, _, rfl, h3, rfl⟩
    rw [Re.chr_iff] at h1 h2 h3
    rw [Re.dots_iff] at hv
    subst h1 h2 h3
    rcases Re.sep_iff.1 ha with rfl | rfl
    · exact ⟨'/', v, .inl rfl, hv, rfl⟩
    · exact ⟨'\\', v, .inr rfl, hv, rfl⟩
  · rintro ⟨c, v, hc, hv, rfl⟩
    refine ⟨[c], _, rfl, Re.sep_iff.2 ?_, v, _, rfl, Re.dots_iff.2 hv, ['.'], ['g', 'o'], rfl, Re.chr_iff.2 rfl, ['g'], ['o'], rfl,
      Re.chr_iff.2 rfl, ['o'], [], rfl, Re.chr_iff.2 rfl, rfl⟩
    rcases hc with rfl | rfl
    · exact .inl rfl
    · exact .inr rfl

section

variable {pwd r : List Source.Text} {src s : Source.Text} {fs : FS} {skip : List Source.Text}

theorem splitStars_at {a b : Source.Text} (h : '*' ∉ a) : splitStars (a ++ '*' :: '*' :: b) = some (a, b) := by
  induction a with
  | nil => simp [splitStars]
  | cons c a ih =>
    rw [List.cons_append, splitStars, if_neg fun e => h (by rw [e.1]; exact List.mem_cons_self ..),
      ih fun hm => h (List.mem_cons_of_mem _ hm)]
    rfl

theorem trimSpace_of {a : Source.Text} {c d : Char} (hc : isSpace c = false) (hd : isSpace d = false) : trimSpace (c :: (a ++ [d])) = c :: (a ++ [d]) := by
  unfold trimSpace
  rw [List.dropWhile_cons_of_neg (by simp [hc])]
  rw [show (c :: (a ++ [d])).reverse = d :: (a.reverse ++ [c]) by simp, List.dropWhile_cons_of_neg (by simp [hd])]
  simp

theorem trimSpace_path_slash (ns : List Source.Text) : trimSpace (path ns ++ ['/']) = path ns ++ ['/'] := by
  cases ns with
  | nil => decide
  | cons n ns => exact trimSpace_of (a := n ++ path ns) (by decide) (by decide)

theorem trimSlash_append (s : Source.Text) : trimSlash (s ++ ['/']) = s := by
  unfold trimSlash
  rw [if_pos (by simp)]; simp

theorem trimPrefix_append (a b : Source.Text) : trimPrefix (a ++ b) a = b := by
  unfold trimPrefix
  rw [if_pos (by simp [List.isPrefixOf_iff_prefix])]; simp

theorem join_path_path {a b : List Source.Text} (ha : ∀ n ∈ a, Name n) (hb : ∀ n ∈ b, Name n) (h : a ≠ []) : join (path a) (path b) = path (a ++ b) := by
  unfold join
  rw [if_neg fun e => path_ne h e.1]
  refine clean_goes ?_ (by simp [h])
  rw [parts_append, parts_path fun n hn => (hb n hn).2.1]
  exact goes_append (goes_path ha) (.stay (.inl rfl) (goes_down hb))

/-- What is planned for everything below a folder. -/
theorem plan_below {sfx : Source.Text} (ht : resolve (path pwd) src = some (path r ++ '/' :: '*' :: '*' :: sfx)) (hsfx : sfx ≠ []) (hstar : '*' ∉ path r) :
    plan fs (path pwd) src = .ofComp (path r) ((walk fs (path r)).map fun p => trimPrefix p (path r)) ((compile (path r)).around lowerDirs (compile sfx)) := by
  unfold plan
  rw [ht]
  have e : splitStars (path r ++ '/' :: '*' :: '*' :: sfx) = some (path r ++ ['/'], sfx) := by
    rw [show path r ++ '/' :: '*' :: '*' :: sfx = (path r ++ ['/']) ++ '*' :: '*' :: sfx by simp]
    apply splitStars_at
    simpa using hstar
  simp only [e, trimSpace_path_slash, trimSlash_append, if_neg hsfx]

/-- The directories visited below a folder. -/
theorem mem_below {m : Matcher} {f : Source.Text} (hr : r ≠ []) (hrn : ∀ n ∈ r, Name n) (hdir : fs.stat (path r) = some true)
    (hb : ∀ ns ∈ fs.below (path r), ∀ n ∈ ns, Name n) :
    f ∈ filesOf fs skip (.job (path r) ((walk fs (path r)).map fun p => trimPrefix p (path r)) m) ↔
      ∃ ns ∈ [] :: fs.below (path r), path (r ++ ns) ∉ skip ∧ ∃ n ∈ fs.files (path (r ++ ns)), f = path (r ++ ns) ++ '/' :: n ∧ m.test f = true := by
  have hw : (walk fs (path r)).map (fun p => trimPrefix p (path r)) = ([] :: fs.below (path r)).map path := by
    unfold walk
    rw [hdir]
    simp only [List.map_cons, List.map_map]
    congr 1
    · have := trimPrefix_append (path r) []
      rwa [List.append_nil] at this
    · rw [clean_path hrn hr]
      apply List.map_congr_left
      intro ns hns
      simp only [Function.comp]
      rw [unparts_eq, ← path_append, clean_path, path_append, trimPrefix_append]
      · intro n hn
        rcases List.mem_append.1 hn with h | h
        · exact hrn n h
        · exact hb ns hns n h
      · simp [hr]
  rw [hw]
  show f ∈ List.flatMap _ (List.map path _) ↔ _
  rw [List.mem_flatMap]
  constructor
  · rintro ⟨d, hd, hf⟩
    obtain ⟨ns, hns, rfl⟩ := List.mem_map.1 hd
    have hj : join (path r) (path ns) = path (r ++ ns) := by
      rcases List.mem_cons.1 hns with rfl | h
      · rw [List.append_nil]; exact join_path hrn hr
      · exact join_path_path hrn (hb ns h) hr
    dsimp only at hf
    rw [hj] at hf
    by_cases hk : path (r ++ ns) ∈ skip
    · rw [if_pos hk] at hf; cases hf
    · rw [if_neg hk, List.mem_filter, List.mem_map] at hf
      obtain ⟨⟨n, hn, rfl⟩, h⟩ := hf
      exact ⟨ns, hns, hk, n, hn, rfl, h⟩
  · rintro ⟨ns, hns, hk, n, hn, rfl, h⟩
    have hj : join (path r) (path ns) = path (r ++ ns) := by
      rcases List.mem_cons.1 hns with rfl | h
      · rw [List.append_nil]; exact join_path hrn hr
      · exact join_path_path hrn (hb ns h) hr
    refine ⟨path ns, List.mem_map.2 ⟨ns, hns, rfl⟩, ?_⟩
    dsimp only
    rw [hj, if_neg hk, List.mem_filter, List.mem_map]
    exact ⟨⟨n, hn, rfl⟩, h⟩

/-- C53 for everything below a folder: all Go files in the folder and the folders below it are selected, other than those in the destination
of database code.  Full statement: for all folders.  Missing: folders whose path has a character with a meaning in regular expressions; see
`C53_plus_nothing` and `C53_plus_plus_panics`. -/
theorem C53_below_partial (ht : resolve (path pwd) src = some (path r ++ "/**/*.go".toList)) (hr : r ≠ []) (hrn : ∀ n ∈ r, Name n)
    (hplain : ∀ n ∈ r, ∀ c ∈ n, PlainChar c) (hdir : fs.stat (path r) = some true)
    (hb : ∀ ns ∈ fs.below (path r), ∀ n ∈ ns, Name n ∧ '\n' ∉ n)
    (hf : ∀ d, ∀ n ∈ fs.files d, '\n' ∉ n ∧ ∃ a, n = a ++ ".go".toList) (f : Source.Text) :
    f ∈ filesOf fs skip (plan fs (path pwd) src) ↔
      ∃ ns ∈ [] :: fs.below (path r), path (r ++ ns) ∉ skip ∧ ∃ n ∈ fs.files (path (r ++ ns)), f = path (r ++ ns) ++ '/' :: n := by
  have hpc : ∀ c ∈ path r, PlainChar c := by
    intro c hc
    obtain ⟨n, hn, rfl | h⟩ := mem_path.1 hc
    · decide
    · exact hplain n hn c h
  rw [plan_below (sfx := "/*.go".toList) ht (by decide) fun h => plain_ne_star (hpc _ h) rfl]
  obtain ⟨R, hR, hL⟩ := compile_plain hpc
  rw [hR, compile_goFiles]
  show f ∈ filesOf fs skip (.job _ _ (.re _)) ↔ _
  rw [mem_below hr hrn hdir fun ns h n hn => (hb ns h n hn).1]
  constructor
  · rintro ⟨ns, hns, hk, n, hn, e, _⟩; exact ⟨ns, hns, hk, n, hn, e⟩
  · rintro ⟨ns, hns, hk, n, hn, rfl⟩
    refine ⟨ns, hns, hk, n, hn, rfl, ?_⟩
    show Re.find _ _ = true
    rw [Re.find_iff]
    obtain ⟨hnl, a, ha⟩ := hf _ n hn
    have hin : ∀ m ∈ ns, '\n' ∉ m := by
      rcases List.mem_cons.1 hns with rfl | h
      · simp
      · exact fun m hm => (hb ns h m hm).2
    refine ⟨[], path r ++ (path ns ++ '/' :: n), [], by rw [path_append]; simp, path r, path ns ++ '/' :: n, rfl, hL, [], _, rfl, Re.star_nil, ?_⟩
    rw [goFiles_iff]
    have hnl' : ∀ v, path ns ++ '/' :: n = '/' :: (v ++ ".go".toList) → '\n' ∉ v := by
      intro v hv hm
      have : '\n' ∈ path ns ++ '/' :: n := by rw [hv]; exact List.mem_cons_of_mem _ (List.mem_append_left _ hm)
      rcases List.mem_append.1 this with h | h
      · obtain ⟨m, hm, e | h⟩ := mem_path.1 h
        · exact absurd e (by decide)
        · exact hin m hm h
      · rcases List.mem_cons.1 h with e | h
        · exact absurd e (by decide)
        · exact hnl h
    cases ns with
    | nil => exact ⟨'/', a, .inl rfl, hnl' a (by rw [ha]; rfl), by rw [ha]; rfl⟩
    | cons m ms =>
      have e : path (m :: ms) ++ '/' :: n = '/' :: ((m ++ path ms ++ '/' :: a) ++ ".go".toList) := by
        rw [ha]; simp [path]
      exact ⟨'/', _, .inl rfl, hnl' _ e, e⟩

/-- C53 for the default source, and for its variants with a folder or the extension. -/
theorem C53_below_sources (ms : List Source.Text) (e : Source.Text) (he : e = [] ∨ e = ".go".toList) :
    resolve (path pwd) ('.' :: (path ms ++ "/**/*".toList ++ e)) = some (path (pwd ++ ms) ++ "/**/*.go".toList) := by
  have htrim : trimSpace ('.' :: (path ms ++ "/**/*".toList ++ e)) = '.' :: (path ms ++ "/**/*".toList ++ e) := by
    rcases he with rfl | rfl
    · rw [List.append_nil, show path ms ++ "/**/*".toList = (path ms ++ "/**/".toList) ++ ['*'] by simp]
      exact trimSpace_of (by decide) (by decide)
    · rw [show path ms ++ "/**/*".toList ++ ".go".toList = (path ms ++ "/**/*.g".toList) ++ ['o'] by simp]
      exact trimSpace_of (by decide) (by decide)
  rw [resolve, htrim, if_neg (by simp), absolute, if_neg (by simp), if_pos (by rfl), List.tail_cons, path_append]
  rcases he with rfl | rfl
  · rw [addGo, if_pos (by simp)]; simp
  · rw [addGo, if_neg (by simp)]; simp

/-! ### Paths with a plus sign -/

theorem compileRest_plus_plus {a b : Source.Text} (ha : a ≠ []) (h : ∀ c ∈ a, PlainChar c) : compileRest (a ++ '+' :: '+' :: b) = .panic := by
  induction a with
  | nil => exact absurd rfl ha
  | cons c a ih =>
    have hc := h c (List.mem_cons_self ..)
    rw [List.cons_append, compileRest, if_neg (plain_ne_plus hc), atom_plain hc]
    cases a with
    | nil => simp [compileRest, plain_ne_star hc]
    | cons d a =>
      simp only [ih (by simp) fun d hd => h d (List.mem_cons_of_mem _ hd), ite_self]

/-- C53 is false of the code below folders like `/home/me/c++`: the generator panics, for the default source too. -/
theorem C53_plus_plus_panics (a b sfx : Source.Text) (ha : a ≠ []) (hplain : ∀ c ∈ a, PlainChar c) (hpath : path r = a ++ '+' :: '+' :: b)
    (hstar : '*' ∉ b) (hsfx : sfx ≠ []) (ht : resolve (path pwd) src = some (path r ++ '/' :: '*' :: '*' :: sfx)) :
    plan fs (path pwd) src = .panic := by
  rw [plan_below ht hsfx, hpath, compile, if_neg, compileRest_plus_plus ha hplain]
  · rfl
  · cases a with
    | nil => exact absurd rfl ha
    | cons c a => simpa using plain_ne_plus (hplain c (by simp))
  · rw [hpath]
    simp only [List.mem_append, List.mem_cons, not_or]
    exact ⟨fun h => plain_ne_star (hplain _ h) rfl, by decide, by decide, hstar⟩

def isSepB (c : Char) : Bool := c == '/' || c == '\\'

/-- The number of separators in a text. -/
def seps (s : Source.Text) : Nat := s.countP isSepB

theorem seps_append (a b : Source.Text) : seps (a ++ b) = seps a + seps b := List.countP_append

theorem seps_cons (c : Char) (s : Source.Text) : seps (c :: s) = seps s + if isSepB c then 1 else 0 := List.countP_cons

/-- A separator is in the same place in a text if there are equally many before it. -/
theorem split_at_sep {u y u' y' : Source.Text} {c c' : Char} (hc : isSepB c = true) (hc' : isSepB c' = true) (h : seps u = seps u')
    (e : u ++ c :: y = u' ++ c' :: y') : u = u' ∧ c :: y = c' :: y' := by
  induction u generalizing u' with
  | nil =>
    cases u' with
    | nil => exact ⟨rfl, e⟩
    | cons d u' =>
      have e1 := (List.cons.inj e).1
      subst e1
      rw [seps_cons, if_pos hc] at h
      simp [seps] at h
  | cons d u ih =>
    cases u' with
    | nil =>
      have e1 := (List.cons.inj e).1
      subst e1
      rw [seps_cons, if_pos hc'] at h
      simp [seps] at h
    | cons d' u' =>
      simp only [List.cons_append, List.cons.injEq] at e
      obtain ⟨rfl, e⟩ := e
      rw [seps_cons, seps_cons] at h
      obtain ⟨rfl, e'⟩ := ih (by omega) e
      exact ⟨rfl, e'⟩

theorem plus_lang {a : Re} {w : Source.Text} (h : (Re.plus a).Lang w) : ∃ us : List Source.Text, us ≠ [] ∧ w = us.flatten ∧ ∀ u ∈ us, a.Lang u := by
  obtain ⟨u, _, rfl, hu, vs, rfl, hvs⟩ := h
  refine ⟨u :: vs, by simp, rfl, fun w hw => ?_⟩
  rcases List.mem_cons.1 hw with rfl | hw
  · exact hu
  · exact hvs w hw

/-- What an expression made from a text with plain characters and plus signs matches. -/
theorem compileRest_lang {s : Source.Text} (h : ∀ c ∈ s, PlainChar c ∨ c = '+') {R : Re} (hR : compileRest s = .re R) {w : Source.Text} (hw : R.Lang w) :
    '+' ∉ w ∧ seps s ≤ seps w := by
  induction s generalizing R w with
  | nil =>
    cases hR
    have : w = [] := hw
    subst this
    exact ⟨by simp, Nat.le_refl _⟩
  | cons c s ih =>
    have ih := @ih fun d hd => h d (List.mem_cons_of_mem _ hd)
    rw [compileRest] at hR
    by_cases hp : c = '+'
    · rw [if_pos hp] at hR
      by_cases h2 : s.head? = some '+'
      · rw [if_pos h2] at hR; cases hR
      · rw [if_neg h2] at hR
        have := ih hR hw
        rw [seps_cons, hp]
        exact ⟨this.1, this.2⟩
    · have hc := (h c (List.mem_cons_self ..)).resolve_right hp
      rw [if_neg hp, atom_plain hc] at hR
      simp only at hR
      rw [if_neg fun e => plain_ne_star hc e.2] at hR
      cases hr : compileRest s with
      | panic => rw [hr] at hR; cases hR
      | other => rw [hr] at hR; cases hR
      | re r =>
        rw [hr] at hR
        simp only [Comp.re.injEq] at hR
        subst hR
        obtain ⟨u, v, rfl, hu, hv⟩ := hw
        have hv := ih hr hv
        have one : ∀ u, (if c = '/' then Re.sep else Re.chr c).Lang u → '+' ∉ u ∧ (if isSepB c then 1 else 0) ≤ seps u := by
          intro u hu
          by_cases hcs : c = '/'
          · rw [if_pos hcs] at hu
            rcases Re.sep_iff.1 hu with rfl | rfl <;> refine ⟨by decide, ?_⟩ <;> subst hcs <;> decide
          · rw [if_neg hcs, Re.chr_iff] at hu
            subst hu
            refine ⟨by simpa using fun e => hp e.symm, ?_⟩
            rw [seps_cons]; omega
        have hu : '+' ∉ u ∧ (if isSepB c then 1 else 0) ≤ seps u := by
          by_cases h2 : s.head? = some '+'
          · rw [if_pos h2] at hu
            obtain ⟨us, hne, rfl, hus⟩ := plus_lang hu
            refine ⟨?_, ?_⟩
            · intro hm
              obtain ⟨x, hx, hxm⟩ := List.mem_flatten.1 hm
              exact (one x (hus x hx)).1 hxm
            · cases us with
              | nil => exact absurd rfl hne
              | cons x xs =>
                rw [List.flatten_cons, seps_append]
                have := (one x (hus x (List.mem_cons_self ..))).2
                omega
          · rw [if_neg h2] at hu
            exact one u hu
        refine ⟨?_, ?_⟩
        · intro hm
          rcases List.mem_append.1 hm with h | h
          · exact hu.1 h
          · exact hv.1 h
        · rw [seps_append, seps_cons]; omega

theorem path_head {ns : List Source.Text} : ns ≠ [] → ∃ s, path ns = '/' :: s := by
  intro h
  cases ns with
  | nil => exact absurd rfl h
  | cons n ns => exact ⟨_, rfl⟩

theorem lowerDirs_head {w : Source.Text} (h : lowerDirs.Lang w) : w = [] ∨ ∃ c s, w = c :: s ∧ isSepB c = true := by
  obtain ⟨us, rfl, hus⟩ := h
  induction us with
  | nil => exact .inl rfl
  | cons u us ih =>
    obtain ⟨a, b, rfl, ha, _⟩ := hus u (List.mem_cons_self ..)
    right
    rcases Re.sep_iff.1 ha with rfl | rfl
    · exact ⟨'/', _, rfl, rfl⟩
    · exact ⟨'\\', _, rfl, rfl⟩

/-- C53 is false of the code in folders with a plus sign in their path: no file of the folder is selected by the pattern for everything below it. -/
theorem C53_plus_nothing (ht : resolve (path pwd) src = some (path r ++ "/**/*.go".toList)) (hr : r ≠ []) (hrn : ∀ n ∈ r, Name n)
    (hplain : ∀ n ∈ r, ∀ c ∈ n, PlainChar c ∨ c = '+') (hplus : '+' ∈ path r) (hdir : fs.stat (path r) = some true)
    (hb : ∀ ns ∈ fs.below (path r), ∀ n ∈ ns, Name n) (n : Source.Text) (hn : Name n) (hn' : '\\' ∉ n) :
    path r ++ '/' :: n ∉ filesOf fs skip (plan fs (path pwd) src) := by
  have hpc : ∀ c ∈ path r, PlainChar c ∨ c = '+' := by
    intro c hc
    obtain ⟨n, hn, rfl | h⟩ := mem_path.1 hc
    · exact .inl (by decide)
    · exact hplain n hn c h
  rw [plan_below (sfx := "/*.go".toList) ht (by decide) fun h => (hpc _ h).elim (fun h => plain_ne_star h rfl) (by decide), compile_goFiles]
  have hhead : (path r).head? ≠ some '+' := by
    cases r with
    | nil => exact absurd rfl hr
    | cons m ms => simp [path]
  rw [compile, if_neg hhead]
  cases hR : compileRest (path r) with
  | panic => simp [Comp.around, Plan.ofComp, filesOf]
  | other => simp [Comp.around, Plan.ofComp, filesOf]
  | re R =>
    show _ ∉ filesOf fs skip (.job _ _ (.re _))
    rw [mem_below hr hrn hdir hb]
    rintro ⟨ns, _, _, m, _, _, h⟩
    replace h : Re.find _ _ = true := h
    rw [Re.find_iff] at h
    obtain ⟨p, _, q, e, w, _, rfl, hw, d, x, rfl, hd, hx⟩ := h
    have hwl := compileRest_lang hpc hR hw
    obtain ⟨c, v, hc, _, rfl⟩ := goFiles_iff.1 hx
    have hcs : isSepB c = true := by rcases hc with rfl | rfl <;> rfl
    have hsn : seps n = 0 := by
      unfold seps
      rw [List.countP_eq_zero]
      intro c hc h
      simp only [isSepB, Bool.or_eq_true, beq_iff_eq] at h
      rcases h with rfl | rfl
      · exact hn.2.1 hc
      · exact hn' hc
    have hcount := congrArg seps e
    simp only [seps_append, seps_cons, hsn, hcs, if_true, show isSepB '/' = true from rfl] at hcount
    have hp : p = [] := by
      cases p with
      | nil => rfl
      | cons c' p =>
        obtain ⟨s, hs⟩ := path_head hr
        rw [hs] at e
        have := (List.cons.inj e).1
        subst this
        rw [seps_cons] at hcount
        simp only [show isSepB '/' = true from rfl, if_true] at hcount
        omega
    subst hp
    obtain ⟨c2, y, hy, hc2⟩ : ∃ c2 y, d ++ (c :: (v ++ ".go".toList)) ++ q = c2 :: y ∧ isSepB c2 = true := by
      rcases lowerDirs_head hd with rfl | ⟨c2, s, rfl, h⟩
      · exact ⟨c, _, rfl, hcs⟩
      · exact ⟨c2, _, rfl, h⟩
    have e' : path r ++ '/' :: n = w ++ c2 :: y := by
      rw [e, ← hy]; simp
    have hsw : seps (path r) = seps w := by
      have : seps ([] : Source.Text) = 0 := rfl
      omega
    obtain ⟨e1, _⟩ := split_at_sep rfl hc2 hsw e'
    exact hwl.1 (by rw [← e1]; exact hplus)

theorem compileRest_only {s : Source.Text} (h : ∀ c ∈ s, PlainChar c) : ∃ R, compileRest s = .re R ∧ ∀ w, '\\' ∉ w → (R.Lang w ↔ w = s) := by
  induction s with
  | nil => exact ⟨.eps, rfl, fun w _ => Iff.rfl⟩
  | cons c s ih =>
    obtain ⟨r, hr, hl⟩ := ih fun d hd => h d (List.mem_cons_of_mem _ hd)
    have hc := h c (List.mem_cons_self ..)
    have hh : s.head? ≠ some '+' := by
      cases s with
      | nil => simp
      | cons d s => simpa using plain_ne_plus (h d (by simp))
    rw [compileRest, if_neg (plain_ne_plus hc), atom_plain hc]
    simp only [hr, if_neg hh]
    rw [if_neg fun e => hh e.1]
    refine ⟨_, rfl, fun w hbs => ?_⟩
    constructor
    · rintro ⟨u, v, rfl, hu, hv⟩
      rw [(hl v fun hm => hbs (List.mem_append_right _ hm)).1 hv]
      by_cases e : c = '/'
      · rw [if_pos e] at hu
        rcases Re.sep_iff.1 hu with rfl | rfl
        · rw [e]; rfl
        · exact absurd (List.mem_append_left _ (by simp)) hbs
      · rw [if_neg e] at hu
        rw [Re.chr_iff.1 hu]; rfl
    · rintro rfl
      refine ⟨[c], s, rfl, ?_, (hl s fun hm => hbs (List.mem_cons_of_mem _ hm)).2 rfl⟩
      by_cases e : c = '/'
      · rw [if_pos e, e]; exact Re.sep_iff.2 (.inl rfl)
      · rw [if_neg e]; exact Re.chr_iff.2 rfl

/-! ### Everything below, without a slash -/

theorem compile_only {s : Source.Text} (h : ∀ c ∈ s, PlainChar c) : ∃ R, compile s = .re R ∧ ∀ w, '\\' ∉ w → (R.Lang w ↔ w = s) := by
  unfold compile
  rw [if_neg]
  · exact compileRest_only h
  · cases s with
    | nil => simp
    | cons d s => simpa using plain_ne_plus (h d (by simp))

theorem seps_name {n : Source.Text} (h : '/' ∉ n) (h' : '\\' ∉ n) : seps n = 0 := by
  unfold seps
  rw [List.countP_eq_zero]
  intro c hc hs
  simp only [isSepB, Bool.or_eq_true, beq_iff_eq] at hs
  rcases hs with rfl | rfl
  · exact h hc
  · exact h' hc

/-- C53 is false of the code for patterns like `models/**`: files whose names start with a capital are left out, unless they start with the name of the
folder followed by `.go`. -/
theorem C53_capital_left_out {r' : List Source.Text} {d : Source.Text} (hr : r = r' ++ [d]) (hrn : ∀ n ∈ r, Name n)
    (hplain : ∀ n ∈ r, ∀ c ∈ n, PlainChar c) (ht : resolve (path pwd) src = some (path r ++ "/**.go".toList)) (hdir : fs.stat (path r) = some true)
    (hb : ∀ ns ∈ fs.below (path r), ∀ n ∈ ns, Name n) (c : Char) (n : Source.Text) (hc : 'A' ≤ c ∧ c ≤ 'Z') (hn : '/' ∉ n ∧ '\\' ∉ n)
    (hd : ¬ d ++ ".go".toList <+: c :: n) :
    path r ++ '/' :: c :: n ∉ filesOf fs skip (plan fs (path pwd) src) := by
  have hrne : r ≠ [] := by rw [hr]; simp
  have hpc : ∀ c ∈ path r, PlainChar c := by
    intro c hc
    obtain ⟨n, hn, rfl | h⟩ := mem_path.1 hc
    · decide
    · exact hplain n hn c h
  have hbs : '\\' ∉ path r := by
    intro hm
    have := hpc _ hm
    revert this; decide
  obtain ⟨R, hR, hL⟩ := compile_only hpc
  obtain ⟨S, hS, hM⟩ := compile_only (s := ".go".toList) (by decide)
  rw [plan_below (sfx := ".go".toList) ht (by decide) fun h => plain_ne_star (hpc _ h) rfl, hR, hS]
  show _ ∉ filesOf fs skip (.job _ _ (.re _))
  rw [mem_below hrne hrn hdir hb]
  rintro ⟨ns, _, _, m, _, _, h⟩
  replace h : Re.find _ _ = true := h
  rw [Re.find_iff] at h
  obtain ⟨p, _, q, e, w, _, rfl, hw, dd, x, rfl, hdd, hx⟩ := h
  have hsl : isSepB c = false ∧ isLower c = false ∧ isDigit c = false ∧ c ≠ '_' ∧ c ≠ '-' := by
    have g1 : 65 ≤ c.toNat := hc.1
    have g2 : c.toNat ≤ 90 := hc.2
    have ne : ∀ d : Char, (d.toNat < 65 ∨ 90 < d.toNat) → c ≠ d := by rintro d h rfl; omega
    refine ⟨?_, ?_, ?_, ne _ (by decide), ne _ (by decide)⟩
    · simp [isSepB, ne '/' (by decide), ne '\\' (by decide)]
    · have : ¬ 'a' ≤ c := fun h => by have : 97 ≤ c.toNat := h; omega
      simp [isLower, this]
    · have : ¬ c ≤ '9' := fun h => by have : c.toNat ≤ 57 := h; omega
      simp [isDigit, this]
  have hbt : '\\' ∉ path r ++ '/' :: c :: n := by
    intro hm
    rcases List.mem_append.1 hm with h | h
    · exact hbs h
    · simp only [List.mem_cons] at h
      rcases h with h | h | h
      · exact absurd h (by decide)
      · rw [← h] at hsl; exact absurd hsl.1 (by decide)
      · exact hn.2 h
  have hwr : w = path r := (hL w fun h => hbt (by rw [e]; simp [h])).1 hw
  have hxg : x = ".go".toList := (hM x fun h => hbt (by rw [e]; simp [h])).1 hx
  subst hwr hxg
  have hcn : seps (c :: n) = 0 := by rw [seps_cons, hsl.1, seps_name hn.1 hn.2]; rfl
  have hcount := congrArg seps e
  rw [seps_append, seps_cons, hcn] at hcount
  simp only [seps_append, show isSepB '/' = true from rfl, if_true] at hcount
  cases p with
  | nil =>
    -- the expression starts where the path does
    rw [List.nil_append, List.append_assoc] at e
    have e := List.append_cancel_left e
    obtain ⟨us, rfl, hus⟩ := hdd
    cases us with
    | nil => exact absurd (List.cons.inj e).1 (by decide)
    | cons u us =>
      obtain ⟨a, b, rfl, ha, hb'⟩ := hus u (List.mem_cons_self ..)
      obtain ⟨hbn, hbl⟩ := Re.plus_cls.1 hb'
      cases b with
      | nil => exact hbn rfl
      | cons c' b =>
        have hc' := hbl c' (List.mem_cons_self ..)
        have e2 : '/' :: c :: n = a ++ (c' :: (b ++ (us.flatten ++ (".go".toList ++ q)))) := by rw [e]; simp
        rcases Re.sep_iff.1 ha with rfl | rfl
        · have := (List.cons.inj (List.cons.inj e2).2).1
          subst this
          simp [hsl] at hc'
        · exact absurd (List.cons.inj e2).1 (by decide)
  | cons c' p =>
    -- it starts later: then the name starts with that of the folder
    have hc' : isSepB c' = true := by
      obtain ⟨s, hs⟩ := path_head hrne
      rw [hs] at e
      rw [← (List.cons.inj e).1]; rfl
    rw [seps_cons, if_pos hc'] at hcount
    have hp0 : seps p = 0 ∧ seps dd = 0 := by omega
    have hdd0 : dd = [] := by
      rcases lowerDirs_head hdd with h | ⟨c2, s, rfl, h⟩
      · exact h
      · have := hp0.2
        rw [seps_cons, if_pos h] at this
        omega
    subst hdd0
    have hdn : seps d = 0 := by
      refine seps_name (hrn d (by rw [hr]; simp)).2.1 fun hm => ?_
      have := hplain d (by rw [hr]; simp) _ hm
      revert this; decide
    rw [hr, path_snoc] at e
    have e3 : (path r' ++ '/' :: d) ++ '/' :: (c :: n) = (c' :: p ++ path r') ++ '/' :: (d ++ (".go".toList ++ q)) := by rw [e]; simp
    have hse : seps (path r' ++ '/' :: d) = seps (c' :: p ++ path r') := by
      rw [seps_append, seps_cons, hdn, seps_append, seps_cons, if_pos hc', hp0.1]
      simp only [show isSepB '/' = true from rfl, if_true]
      omega
    obtain ⟨_, e4⟩ := split_at_sep rfl rfl hse e3
    exact hd ⟨q, by rw [(List.cons.inj e4).2]; simp⟩

/-! ### One star -/

/-- ASCII letters. -/
def Letter (c : Char) : Prop := ('a' ≤ c ∧ c ≤ 'z') ∨ ('A' ≤ c ∧ c ≤ 'Z')

/-- ASCII letters, digits and the underscore. -/
def Word (c : Char) : Prop := Letter c ∨ ('0' ≤ c ∧ c ≤ '9') ∨ c = '_'

/-- Two or more letters, digits, underscores, dashes and dots, a letter first. -/
def DirName (p : Source.Text) : Prop := ∃ c d q, p = c :: d :: q ∧ Letter c ∧ ∀ e ∈ d :: q, Word e ∨ e = '-' ∨ e = '.'

theorem isAlphaI_of {c : Char} (h : Letter c) : isAlphaI c = true := by
  simp only [isAlphaI, isLower, isUpper, Bool.or_eq_true, Bool.and_eq_true, decide_eq_true_eq]
  rcases h with h | h
  · exact .inl (.inl (.inl h))
  · exact .inl (.inl (.inr h))

theorem isWordI_of {c : Char} (h : Word c) : isWordI c = true := by
  simp only [isWordI, isDigit, Bool.or_eq_true, Bool.and_eq_true, decide_eq_true_eq, beq_iff_eq]
  rcases h with h | h | h
  · exact .inl (.inl (isAlphaI_of h))
  · exact .inl (.inr h)
  · exact .inr h

theorem isDirI_of {c : Char} (h : Word c ∨ c = '-' ∨ c = '.') : isDirI c = true := by
  simp only [isDirI, isDigit, Bool.or_eq_true, Bool.and_eq_true, decide_eq_true_eq, beq_iff_eq]
  rcases h with (h | h | h) | h | h
  · exact .inl (.inl (.inl (.inl (isAlphaI_of h))))
  · exact .inl (.inl (.inl (.inr h)))
  · exact .inl (.inr h)
  · exact .inl (.inl (.inr h))
  · exact .inr h

theorem dirName_all {p : Source.Text} (h : DirName p) : (∀ c ∈ p, isDirI c = true) ∧ isDirName p = true := by
  obtain ⟨c, d, q, rfl, hc, hq⟩ := h
  refine ⟨fun e he => ?_, ?_⟩
  · rcases List.mem_cons.1 he with rfl | he
    · exact isDirI_of (.inl (.inl hc))
    · exact isDirI_of (hq e he)
  · simp only [isDirName, isAlphaI_of hc, isDirI_of (hq d (List.mem_cons_self ..)), Bool.true_and, List.all_eq_true]
    exact fun e he => isDirI_of (hq e (List.mem_cons_of_mem _ he))

theorem takeWhile_stop {p : Char → Bool} {a b : Source.Text} {c : Char} (ha : ∀ d ∈ a, p d = true) (hc : p c = false) :
    (a ++ c :: b).takeWhile p = a ∧ (a ++ c :: b).dropWhile p = c :: b := by
  induction a with
  | nil => simp [hc]
  | cons d a ih =>
    have := ih fun e he => ha e (List.mem_cons_of_mem _ he)
    simp [ha d (List.mem_cons_self ..), this]

/-- Directories followed by something that is none. -/
theorem takeDirs_path {ds : List Source.Text} (h : ∀ d ∈ ds, DirName d) (rest : Source.Text) (hrest : ∀ n, takeDirs n rest = ([], rest)) (n : Nat)
    (hn : ds.length ≤ n) : takeDirs n (ds.flatMap (fun d => d ++ ['/']) ++ rest) = (ds.flatMap fun d => d ++ ['/'], rest) := by
  induction ds generalizing n with
  | nil => exact hrest n
  | cons d ds ih =>
    cases n with
    | zero => simp at hn
    | succ n =>
      have hd := dirName_all (h d (List.mem_cons_self ..))
      have ih := ih (fun e he => h e (List.mem_cons_of_mem _ he)) n (by simpa using hn)
      have e : (d :: ds).flatMap (fun d => d ++ ['/']) ++ rest = d ++ '/' :: (ds.flatMap (fun d => d ++ ['/']) ++ rest) := by simp
      obtain ⟨t1, t2⟩ := takeWhile_stop (p := isDirI) (a := d) (c := '/') (b := ds.flatMap (fun d => d ++ ['/']) ++ rest) hd.1 (by decide)
      rw [e, takeDirs]
      simp only [t1, t2, hd.2, if_true, ih]
      simp

theorem path_slash_eq (ns : List Source.Text) (s : Source.Text) : path ns ++ '/' :: s = '/' :: (ns.flatMap (fun d => d ++ ['/']) ++ s) := by
  induction ns with
  | nil => rfl
  | cons n ns ih =>
    show '/' :: (n ++ path ns) ++ '/' :: s = _
    rw [List.cons_append, List.append_assoc, ih]
    simp

/-- Nothing that starts with no directory name has one taken off. -/
theorem takeDirs_none {a b : Source.Text} {c : Char} (ha : ∀ d ∈ a, isDirI d = true) (hc : isDirI c = false) (hne : c ≠ '/') (n : Nat) :
    takeDirs n (a ++ c :: b) = ([], a ++ c :: b) := by
  cases n with
  | zero => rfl
  | succ n =>
    obtain ⟨_, t2⟩ := takeWhile_stop (b := b) ha hc
    rw [takeDirs]
    simp only [t2]
    split
    · rename_i t ht
      cases ht; exact absurd rfl hne
    · rfl

theorem word_dir {c : Char} (h : Word c) : isDirI c = true := isDirI_of (.inl h)

/-- The part of a pattern after its last slash. -/
theorem isStarName_of {x y : Source.Text} (hx : ∀ c ∈ x, Word c) (hy : ∀ c ∈ y, Word c) :
    isStarName (x ++ '*' :: (y ++ ".go".toList)) = true := by
  obtain ⟨_, t2⟩ := takeWhile_stop (p := isWordI) (a := x) (c := '*') (b := y ++ ".go".toList) (fun d hd => isWordI_of (hx d hd)) (by decide)
  obtain ⟨_, t4⟩ := takeWhile_stop (p := isWordI) (a := y) (c := '.') (b := "go".toList) (fun d hd => isWordI_of (hy d hd)) (by decide)
  rw [isStarName, t2]
  simp only
  rw [show y ++ ".go".toList = y ++ '.' :: "go".toList from rfl, t4]
  rfl

theorem starRoot_path {ds : List Source.Text} (h : ∀ d ∈ ds, DirName d) {x y : Source.Text} (hx : ∀ c ∈ x, Word c) (hy : ∀ c ∈ y, Word c) :
    starRoot (path ds ++ '/' :: (x ++ '*' :: (y ++ ".go".toList))) = some (path ds ++ ['/']) := by
  rw [path_slash_eq, starRoot]
  have hl : ds.length ≤ (ds.flatMap (fun d => d ++ ['/']) ++ (x ++ '*' :: (y ++ ".go".toList))).length := by
    rw [List.length_append]
    suffices ds.length ≤ (ds.flatMap fun d => d ++ ['/']).length by omega
    clear h
    induction ds with
    | nil => simp
    | cons d ds ih => simp only [List.flatMap_cons, List.length_append, List.length_cons, List.length_nil]; omega
  rw [takeDirs_path h _ (takeDirs_none (fun c hc => word_dir (hx c hc)) (by decide) (by decide)) _ hl]
  simp only [isStarName_of hx hy, and_self, if_true]
  rw [path_slash_eq]
  simp

theorem plain_word {c : Char} (h : Word c ∨ c = '-' ∨ c = '.') : PlainChar c := by
  intro hm
  have hd := isDirI_of h
  simp only [List.mem_cons, List.not_mem_nil, or_false] at hm
  rcases hm with rfl | rfl | rfl | rfl | rfl | rfl | rfl | rfl | rfl | rfl | rfl | rfl | rfl | rfl <;> revert hd <;> decide

/-- The texts matched by the expression made from a text with one star. -/
theorem compileRest_star {a b : Source.Text} (ha : ∀ c ∈ a, PlainChar c) (hb : ∀ c ∈ b, PlainChar c) :
    ∃ R, compileRest (a ++ '*' :: b) = .re R ∧ ∀ w, '\\' ∉ w → (R.Lang w ↔ ∃ v, w = a ++ (v ++ b) ∧ '\n' ∉ v) := by
  induction a with
  | nil =>
    obtain ⟨r, hr, hl⟩ := compileRest_only hb
    have hh : b.head? ≠ some '+' := by
      cases b with
      | nil => simp
      | cons d s => simpa using plain_ne_plus (hb d (by simp))
    rw [List.nil_append, compileRest, if_neg (by decide), show atom '*' = some .dots from rfl]
    simp only [hr, if_neg hh]
    rw [if_neg fun e => hh e.1]
    refine ⟨_, rfl, fun w hbs => ?_⟩
    constructor
    · rintro ⟨u, v, rfl, hu, hv⟩
      rw [(hl v fun hm => hbs (List.mem_append_right _ hm)).1 hv]
      exact ⟨u, rfl, Re.dots_iff.1 hu⟩
    · rintro ⟨v, rfl, hv⟩
      exact ⟨v, b, rfl, Re.dots_iff.2 hv, (hl b fun hm => hbs (List.mem_append_right v hm)).2 rfl⟩
  | cons c a ih =>
    obtain ⟨r, hr, hl⟩ := ih fun d hd => ha d (List.mem_cons_of_mem _ hd)
    have hc := ha c (List.mem_cons_self ..)
    have hh : (a ++ '*' :: b).head? ≠ some '+' := by
      cases a with
      | nil => simp
      | cons d s => simpa using plain_ne_plus (ha d (by simp))
    rw [List.cons_append, compileRest, if_neg (plain_ne_plus hc), atom_plain hc]
    simp only [hr, if_neg hh]
    rw [if_neg fun e => hh e.1]
    refine ⟨_, rfl, fun w hbs => ?_⟩
    constructor
    · rintro ⟨u, w, rfl, hu, hv⟩
      obtain ⟨v, rfl, hnl⟩ := (hl w fun hm => hbs (List.mem_append_right _ hm)).1 hv
      refine ⟨v, ?_, hnl⟩
      by_cases e : c = '/'
      · rw [if_pos e] at hu
        rcases Re.sep_iff.1 hu with rfl | rfl
        · rw [e]; rfl
        · exact absurd (List.mem_append_left _ (by simp)) hbs
      · rw [if_neg e] at hu
        rw [Re.chr_iff.1 hu]; rfl
    · rintro ⟨v, rfl, hnl⟩
      refine ⟨[c], a ++ (v ++ b), rfl, ?_, (hl _ fun hm => hbs (List.mem_cons_of_mem _ hm)).2 ⟨v, rfl, hnl⟩⟩
      by_cases e : c = '/'
      · rw [if_pos e, e]; exact Re.sep_iff.2 (.inl rfl)
      · rw [if_neg e]; exact Re.chr_iff.2 rfl

theorem splitStars_one {a b : Source.Text} (ha : '*' ∉ a) (hb : '*' ∉ b) : splitStars (a ++ '*' :: b) = none := by
  induction a with
  | nil =>
    rw [List.nil_append, splitStars, if_neg, splitStars_none hb]
    · rfl
    · rintro ⟨_, h⟩
      exact hb (List.mem_of_head? h)
  | cons c a ih =>
    rw [List.cons_append, splitStars, if_neg fun e => ha (by rw [e.1]; exact List.mem_cons_self ..), ih fun hm => ha (List.mem_cons_of_mem _ hm)]
    rfl

theorem dirName_name {d : Source.Text} (h : DirName d) : Name d := by
  obtain ⟨c, e, q, rfl, hc, hq⟩ := h
  refine ⟨by simp, ?_, ?_, ?_⟩
  · intro hm
    have := (dirName_all ⟨c, e, q, rfl, hc, hq⟩).1 _ hm
    revert this; decide
  · intro h; cases h
  · intro h
    cases h
    revert hc
    unfold Letter; decide

/-- C53 for patterns with one star, in folders whose names have two characters or more and start with a letter: of the files in the folder, those are
selected whose name has a part that the pattern matches, starting at the beginning but not necessarily reaching the end. -/
theorem C53_star_iff {x y : Source.Text} (hx : ∀ c ∈ x, Word c) (hy : ∀ c ∈ y, Word c) (hr : r ≠ []) (hrn : ∀ d ∈ r, DirName d)
    (ht : resolve (path pwd) src = some (path r ++ '/' :: (x ++ '*' :: (y ++ ".go".toList)))) (hk : path r ∉ skip)
    (hf : ∀ n ∈ fs.files (path r), Name n ∧ '\\' ∉ n) (f : Source.Text) :
    f ∈ filesOf fs skip (plan fs (path pwd) src) ↔
      ∃ n ∈ fs.files (path r), f = path r ++ '/' :: n ∧ ∃ n' w, n = n' ++ w ∧ (∃ v, n' = x ++ v ++ (y ++ ".go".toList) ∧ '\n' ∉ v) := by
  have hnames : ∀ n ∈ r, Name n := fun n hn => dirName_name (hrn n hn)
  have hpc : ∀ c ∈ path r ++ '/' :: x, PlainChar c := by
    intro c hc
    rcases List.mem_append.1 hc with h | h
    · obtain ⟨n, hn, rfl | h⟩ := mem_path.1 h
      · decide
      · obtain ⟨c', d, q, rfl, hc', hq⟩ := hrn n hn
        rcases List.mem_cons.1 h with rfl | h
        · exact plain_word (.inl (.inl hc'))
        · exact plain_word (hq c h)
    · rcases List.mem_cons.1 h with rfl | h
      · decide
      · exact plain_word (.inl (hx c h))
  have hpy : ∀ c ∈ y ++ ".go".toList, PlainChar c := by
    intro c hc
    rcases List.mem_append.1 hc with h | h
    · exact plain_word (.inl (hy c h))
    · have h : c ∈ ['.', 'g', 'o'] := h
      simp only [List.mem_cons, List.not_mem_nil, or_false] at h
      rcases h with rfl | rfl | rfl <;> decide
  have hplan : plan fs (path pwd) src = .ofComp (path r) [[]] (compile (path r ++ '/' :: (x ++ '*' :: (y ++ ".go".toList)))) := by
    unfold plan
    rw [ht]
    have e1 : splitStars (path r ++ '/' :: (x ++ '*' :: (y ++ ".go".toList))) = none := by
      rw [show path r ++ '/' :: (x ++ '*' :: (y ++ ".go".toList)) = (path r ++ '/' :: x) ++ '*' :: (y ++ ".go".toList) by simp]
      exact splitStars_one (fun h => plain_ne_star (hpc _ h) rfl) (fun h => plain_ne_star (hpy _ h) rfl)
    simp only [e1, starRoot_path hrn hx hy, trimSlash_append]
  obtain ⟨R, hR, hL⟩ := compileRest_star hpc hpy
  rw [List.append_assoc, List.cons_append] at hR
  have hhead : (path r ++ '/' :: (x ++ '*' :: (y ++ ".go".toList))).head? ≠ some '+' := by
    obtain ⟨s, hs⟩ := path_head hr
    rw [hs]; simp
  rw [hplan, compile, if_neg hhead, hR]
  show f ∈ filesOf fs skip (.job _ _ (.re _)) ↔ _
  rw [mem_filesOf, join_path hnames hr]
  simp only [hk, not_false_eq_true, true_and, Matcher.test]
  have hbs : '\\' ∉ path r := by
    intro hm
    have := hpc _ (List.mem_append_left _ hm)
    revert this; decide
  have key : ∀ n ∈ fs.files (path r), (R.find (path r ++ '/' :: n) = true ↔
      ∃ n' w, n = n' ++ w ∧ (∃ v, n' = x ++ v ++ (y ++ ".go".toList) ∧ '\n' ∉ v)) := by
    intro n hn
    have hbn : '\\' ∉ path r ++ '/' :: n := by
      intro hm
      rcases List.mem_append.1 hm with h | h
      · exact hbs h
      · rcases List.mem_cons.1 h with h | h
        · exact absurd h (by decide)
        · exact (hf n hn).2 h
    rw [Re.find_iff]
    constructor
    · rintro ⟨p, m, q, e, hm⟩
      obtain ⟨v, rfl, hv⟩ := (hL m fun h => hbn (by rw [e]; exact List.mem_append_right _ (List.mem_append_left _ h))).1 hm
      have hsn : seps n = 0 := by
        unfold seps
        rw [List.countP_eq_zero]
        intro c hc h
        simp only [isSepB, Bool.or_eq_true, beq_iff_eq] at h
        rcases h with rfl | rfl
        · exact (hf n hn).1.2.1 hc
        · exact (hf n hn).2 hc
      have hcount := congrArg seps e
      simp only [seps_append, seps_cons, hsn, if_true, show isSepB '/' = true from rfl] at hcount
      have hp : p = [] := by
        cases p with
        | nil => rfl
        | cons c' p =>
          obtain ⟨s, hs⟩ := path_head hr
          rw [hs] at e
          have := (List.cons.inj e).1
          subst this
          rw [seps_cons] at hcount
          simp only [show isSepB '/' = true from rfl, if_true] at hcount
          omega
      subst hp
      rw [List.nil_append, List.append_assoc, List.append_assoc] at e
      have e := List.append_cancel_left e
      rw [List.cons_append, List.cons.injEq] at e
      exact ⟨x ++ v ++ (y ++ ".go".toList), q, by rw [e.2]; simp, v, rfl, hv⟩
    · rintro ⟨_, w, rfl, v, rfl, hv⟩
      refine ⟨[], path r ++ '/' :: (x ++ v ++ (y ++ ".go".toList)), w, by simp, (hL _ ?_).2 ⟨v, by simp, hv⟩⟩
      intro h
      refine hbn ?_
      rcases List.mem_append.1 h with h | h
      · exact List.mem_append_left _ h
      · refine List.mem_append_right _ ?_
        rcases List.mem_cons.1 h with h | h
        · rw [h]; exact List.mem_cons_self ..
        · exact List.mem_cons_of_mem _ (List.mem_append_left _ h)
  constructor
  · rintro ⟨⟨n, hn, rfl⟩, h⟩; exact ⟨n, hn, rfl, (key n hn).1 h⟩
  · rintro ⟨n, hn, rfl, h⟩; exact ⟨⟨n, hn, rfl⟩, (key n hn).2 h⟩

/-- So everything that matches is selected (C53), but not only that: `*_model.go` also selects `user_model.go_old.go`. -/
theorem C53_star_too_many {x y : Source.Text} (hx : ∀ c ∈ x, Word c) (hy : ∀ c ∈ y, Word c) (hr : r ≠ []) (hrn : ∀ d ∈ r, DirName d)
    (ht : resolve (path pwd) src = some (path r ++ '/' :: (x ++ '*' :: (y ++ ".go".toList)))) (hk : path r ∉ skip)
    (hf : ∀ n ∈ fs.files (path r), Name n ∧ '\\' ∉ n) (v w : Source.Text) (hv : '\n' ∉ v)
    (hn : x ++ v ++ (y ++ ".go".toList) ++ w ∈ fs.files (path r)) :
    path r ++ '/' :: (x ++ v ++ (y ++ ".go".toList) ++ w) ∈ filesOf fs skip (plan fs (path pwd) src) :=
  (C53_star_iff hx hy hr hrn ht hk hf _).2 ⟨_, hn, rfl, _, w, rfl, v, rfl, hv⟩

theorem isStarName_false {b rest : Source.Text} (hb : '*' ∉ b) : isStarName (b ++ '/' :: rest) = false := by
  unfold isStarName
  have : ∀ t, (b ++ '/' :: rest).dropWhile isWordI ≠ '*' :: t := by
    induction b with
    | nil => intro t; rw [List.nil_append, List.dropWhile_cons_of_neg (by decide)]; intro h; cases h
    | cons c b ih =>
      intro t
      rw [List.cons_append]
      by_cases hc : isWordI c
      · rw [List.dropWhile_cons_of_pos hc]; exact ih (fun hm => hb (List.mem_cons_of_mem _ hm)) t
      · rw [List.dropWhile_cons_of_neg hc]
        intro h
        exact hb (by rw [(List.cons.inj h).1]; exact List.mem_cons_self ..)
  split
  · rename_i t ht
    exact absurd ht (this t)
  · rfl

/-- Names that are not taken for directories: those of one character, and those starting with a digit or an underscore. -/
def Odd (p : Source.Text) : Prop := p.length = 1 ∨ ∃ c q, p = c :: q ∧ (('0' ≤ c ∧ c ≤ '9') ∨ c = '_')

theorem odd_not_dir {p : Source.Text} (h : Odd p) : isDirName p = false := by
  rcases h with h | ⟨c, q, rfl, h⟩
  · match p, h with
    | [c], _ => rfl
  · cases q with
    | nil => rfl
    | cons d q =>
      have : isAlphaI c = false := by
        rcases h with ⟨h1, h2⟩ | rfl
        · have g1 : 48 ≤ c.toNat := h1
          have g2 : c.toNat ≤ 57 := h2
          have k1 : ¬ 'a' ≤ c := fun h => by have : 97 ≤ c.toNat := h; omega
          have k2 : ¬ 'A' ≤ c := fun h => by have : 65 ≤ c.toNat := h; omega
          have k3 : c.toNat ≠ 0x17F := by omega
          have k4 : c.toNat ≠ 0x212A := by omega
          simp [isAlphaI, isLower, isUpper, k1, k2, k3, k4]
        · decide
      simp [isDirName, this]

theorem name_run {n rest : Source.Text} (h : '/' ∉ n) :
    ((n ++ '/' :: rest).takeWhile isDirI = n ∧ (n ++ '/' :: rest).dropWhile isDirI = '/' :: rest) ∨ ∀ t, (n ++ '/' :: rest).dropWhile isDirI ≠ '/' :: t := by
  induction n with
  | nil => left; exact takeWhile_stop (a := []) (by simp) (by decide)
  | cons c n ih =>
    rw [List.cons_append]
    by_cases hc : isDirI c = true
    · rw [List.dropWhile_cons_of_pos hc, List.takeWhile_cons_of_pos hc]
      rcases ih fun hm => h (List.mem_cons_of_mem _ hm) with ⟨h1, h2⟩ | h'
      · left; rw [h1]; exact ⟨rfl, h2⟩
      · exact .inr h'
    · right
      rw [List.dropWhile_cons_of_neg hc]
      intro t e
      exact h (by rw [(List.cons.inj e).1]; exact List.mem_cons_self ..)

/-- Taking directories off stops at an odd name at the latest. -/
theorem takeDirs_stop {odd rest : Source.Text} (ho : Odd odd) (hon : Name odd) (hos : '*' ∉ odd) (ns : List Source.Text) (k : Nat)
    (hns : ∀ n ∈ ns, Name n ∧ '*' ∉ n) :
    ∃ b t, '*' ∉ b ∧ (takeDirs k (ns.flatMap (fun d => d ++ ['/']) ++ (odd ++ '/' :: rest))).2 = b ++ '/' :: t := by
  induction k generalizing ns with
  | zero =>
    cases ns with
    | nil => exact ⟨odd, rest, hos, rfl⟩
    | cons n ns => exact ⟨n, ns.flatMap (fun d => d ++ ['/']) ++ (odd ++ '/' :: rest), (hns n (List.mem_cons_self ..)).2, by simp [takeDirs]⟩
  | succ k ih =>
    rw [takeDirs]
    dsimp only
    cases ns with
    | nil =>
      rw [List.flatMap_nil, List.nil_append]
      rcases name_run (rest := rest) hon.2.1 with ⟨t1, t2⟩ | h
      · simp only [t1, t2, odd_not_dir ho]
        rw [if_neg (by simp)]
        exact ⟨odd, rest, hos, rfl⟩
      · split
        · rename_i t ht; exact absurd ht (h t)
        · exact ⟨odd, rest, hos, rfl⟩
    | cons n ns =>
      have hn := hns n (List.mem_cons_self ..)
      rw [show (n :: ns).flatMap (fun d => d ++ ['/']) ++ (odd ++ '/' :: rest) =
        n ++ '/' :: (ns.flatMap (fun d => d ++ ['/']) ++ (odd ++ '/' :: rest)) by simp]
      rcases name_run (rest := ns.flatMap (fun d => d ++ ['/']) ++ (odd ++ '/' :: rest)) hn.1.2.1 with ⟨t1, t2⟩ | h
      · simp only [t1, t2]
        by_cases hd : isDirName n = true
        · rw [if_pos hd]
          exact ih ns fun m hm => hns m (List.mem_cons_of_mem _ hm)
        · rw [if_neg hd]; exact ⟨n, _, hn.2, rfl⟩
      · split
        · rename_i t ht; exact absurd ht (h t)
        · exact ⟨n, _, hn.2, rfl⟩

theorem starRoot_skip {n s : Source.Text} (h : '/' ∉ n) : starRoot (n ++ s) = starRoot s := by
  induction n with
  | nil => rfl
  | cons c n ih =>
    rw [List.cons_append, starRoot, if_neg fun e => h (by rw [e.1]; exact List.mem_cons_self ..)]
    exact ih fun hm => h (List.mem_cons_of_mem _ hm)

/-- No match starts before an odd name. -/
theorem starRoot_odd (r1 : List Source.Text) (odd rest : Source.Text) (ho : Odd odd) (hon : Name odd) (hos : '*' ∉ odd) (h1 : ∀ n ∈ r1, Name n ∧ '*' ∉ n) :
    starRoot (path r1 ++ '/' :: (odd ++ '/' :: rest)) = starRoot ('/' :: rest) := by
  induction r1 with
  | nil =>
    show starRoot ('/' :: (odd ++ '/' :: rest)) = _
    rw [starRoot, if_neg, starRoot_skip hon.2.1]
    rintro ⟨_, h⟩
    obtain ⟨b, t, hb, e⟩ := takeDirs_stop (rest := rest) ho hon hos [] (odd ++ '/' :: rest).length (by simp)
    rw [List.flatMap_nil, List.nil_append] at e
    rw [e, isStarName_false hb] at h
    cases h
  | cons n ns ih =>
    have hn := h1 n (List.mem_cons_self ..)
    have ih := ih fun m hm => h1 m (List.mem_cons_of_mem _ hm)
    show starRoot ('/' :: (n ++ path ns) ++ '/' :: (odd ++ '/' :: rest)) = _
    rw [List.cons_append, List.append_assoc, starRoot, if_neg, starRoot_skip hn.1.2.1, ih]
    rintro ⟨_, h⟩
    rw [path_slash_eq, show n ++ '/' :: (ns.flatMap (fun d => d ++ ['/']) ++ (odd ++ '/' :: rest)) =
        (n :: ns).flatMap (fun d => d ++ ['/']) ++ (odd ++ '/' :: rest) by simp] at h
    obtain ⟨b, t, hb, e⟩ := takeDirs_stop (rest := rest) ho hon hos (n :: ns) ((n :: ns).flatMap (fun d => d ++ ['/']) ++ (odd ++ '/' :: rest)).length h1
    rw [e, isStarName_false hb] at h
    cases h

/-- C53 is false of the code for patterns with one star below a directory of one character, or starting with a digit or an underscore: another directory is read,
namely that at the root of the file system whose path is the rest of the pattern's.  No file of the directory meant is selected. -/
theorem C53_star_elsewhere {r1 r2 : List Source.Text} {odd x y : Source.Text} (ho : Odd odd) (hon : Name odd) (hos : '*' ∉ odd) (h1 : ∀ n ∈ r1, Name n ∧ '*' ∉ n)
    (h2 : ∀ n ∈ r2, DirName n) (hx : ∀ c ∈ x, Word c) (hy : ∀ c ∈ y, Word c)
    (ht : resolve (path pwd) src = some (path (r1 ++ odd :: r2) ++ '/' :: (x ++ '*' :: (y ++ ".go".toList)))) (hf : ∀ d, ∀ n ∈ fs.files d, Name n) :
    (∃ c, plan fs (path pwd) src = .ofComp (path r2) [[]] c) ∧
    ∀ n, Name n → path (r1 ++ odd :: r2) ++ '/' :: n ∉ filesOf fs skip (plan fs (path pwd) src) := by
  have hnr2 : ∀ n ∈ r2, Name n ∧ '*' ∉ n := fun n hn => ⟨dirName_name (h2 n hn), fun hm => by
    have := (dirName_all (h2 n hn)).1 _ hm
    revert this; decide⟩
  have hnames : ∀ n ∈ r1 ++ odd :: r2, Name n ∧ '*' ∉ n := by
    intro n hn
    rcases List.mem_append.1 hn with h | h
    · exact h1 n h
    · rcases List.mem_cons.1 h with rfl | h
      · exact ⟨hon, hos⟩
      · exact hnr2 n h
  have hpy : '*' ∉ y ++ ".go".toList := by
    intro hm
    rcases List.mem_append.1 hm with h | h
    · have := isWordI_of (hy _ h)
      revert this; decide
    · revert h; decide
  have e1 : splitStars (path (r1 ++ odd :: r2) ++ '/' :: (x ++ '*' :: (y ++ ".go".toList))) = none := by
    rw [show path (r1 ++ odd :: r2) ++ '/' :: (x ++ '*' :: (y ++ ".go".toList)) = (path (r1 ++ odd :: r2) ++ '/' :: x) ++ '*' :: (y ++ ".go".toList) by simp]
    refine splitStars_one ?_ hpy
    intro hm
    rcases List.mem_append.1 hm with h | h
    · obtain ⟨n, hn, h | h⟩ := mem_path.1 h
      · exact absurd h (by decide)
      · exact (hnames n hn).2 h
    · rcases List.mem_cons.1 h with h | h
      · exact absurd h (by decide)
      · have := isWordI_of (hx _ h)
        revert this; decide
  have e2 : starRoot (path (r1 ++ odd :: r2) ++ '/' :: (x ++ '*' :: (y ++ ".go".toList))) = some (path r2 ++ ['/']) := by
    have : path (r1 ++ odd :: r2) ++ '/' :: (x ++ '*' :: (y ++ ".go".toList)) =
        path r1 ++ '/' :: (odd ++ '/' :: (r2.flatMap (fun d => d ++ ['/']) ++ (x ++ '*' :: (y ++ ".go".toList)))) := by
      rw [path_append, List.append_assoc]
      show path r1 ++ ('/' :: (odd ++ path r2) ++ _) = _
      rw [List.cons_append, List.append_assoc, path_slash_eq r2]
    rw [this, starRoot_odd r1 odd _ ho hon hos h1, ← path_slash_eq, starRoot_path h2 hx hy]
  have hplan : plan fs (path pwd) src = .ofComp (path r2) [[]] (compile (path (r1 ++ odd :: r2) ++ '/' :: (x ++ '*' :: (y ++ ".go".toList)))) := by
    unfold plan
    rw [ht]
    simp only [e1, e2, trimSlash_append]
  refine ⟨⟨_, hplan⟩, fun n hn => ?_⟩
  rw [hplan]
  cases compile (path (r1 ++ odd :: r2) ++ '/' :: (x ++ '*' :: (y ++ ".go".toList))) with
  | panic => simp [Plan.ofComp, filesOf]
  | other => simp [Plan.ofComp, filesOf]
  | re R =>
    show _ ∉ filesOf fs skip (.job _ _ _)
    rw [mem_filesOf]
    rintro ⟨_, ⟨m, hm, e⟩, _⟩
    have hj : join (path r2) [] = path r2 := by
      cases r2 with
      | nil => decide
      | cons d ds => exact join_path (fun n hn => (hnr2 n hn).1) (by simp)
    rw [hj, ← path_snoc, ← path_snoc] at e
    have e := congrArg (List.length ∘ parts) e
    simp only [Function.comp] at e
    rw [parts_path, parts_path] at e
    · simp only [List.length_cons, List.length_append, List.length_nil] at e
      omega
    · intro k hk
      rcases List.mem_append.1 hk with h | h
      · exact (hnr2 k h).1.2.1
      · rw [List.mem_singleton.1 h]
        rw [hj] at hm
        exact (hf _ m hm).2.1
    · intro k hk
      rcases List.mem_append.1 hk with h | h
      · exact (hnames k h).1.2.1
      · rw [List.mem_singleton.1 h]; exact hn.2.1

end

section Examples

/-- A small project: `/home/me/app` with the folders `models` and `models/old`. -/
def exFS : FS where
  stat p := if clean p ∈ ["/home/me/app".toList, "/home/me/app/models".toList, "/home/me/app/models/old".toList] then some true
    else if clean p = "/home/me/app/models/user.go".toList then some false else none
  below p := if p = "/home/me/app".toList then [["models".toList], ["models".toList, "old".toList]]
    else if p = "/home/me/app/models".toList then [["old".toList]] else []
  files p := if p = "/home/me/app/models".toList then ["user.go".toList, "Order.go".toList, "a_model.go".toList, "b_model.go_old.go".toList]
    else if p = "/home/me/app/models/old".toList then ["x.go".toList] else []

def exSelect (src : String) : List String :=
  (filesOf exFS [] (plan exFS "/home/me/app".toList src.toList)).map String.ofList

example : exSelect "./**/*" = ["/home/me/app/models/user.go", "/home/me/app/models/Order.go", "/home/me/app/models/a_model.go",
    "/home/me/app/models/b_model.go_old.go", "/home/me/app/models/old/x.go"] := by decide +kernel
example : exSelect "models" = exSelect "./models/" ∧ exSelect "models" = exSelect "models/../models" ∧ (exSelect "models").length = 4 := by decide +kernel
example : exSelect "./models/../models" = [] := by decide +kernel
example : exSelect "../app/models" = [] := by decide +kernel
example : exSelect "./models/old/../user.go" = ["/home/me/app/models/user.go"] := by decide +kernel
example : exSelect "models/*_model.go" = ["/home/me/app/models/a_model.go", "/home/me/app/models/b_model.go_old.go"] := by decide +kernel
example : exSelect "models/**" = ["/home/me/app/models/user.go", "/home/me/app/models/a_model.go", "/home/me/app/models/b_model.go_old.go",
    "/home/me/app/models/old/x.go"] := by decide +kernel

/-- The hypotheses of `C53_folder_partial`, `C53_below_partial` and `C53_star_iff` are met by this project. -/
example : (∀ n ∈ ["home".toList, "me".toList, "app".toList], Name n) ∧ '*' ∉ path ["home".toList, "me".toList, "app".toList] ∧
    trimSpace "models".toList = "models".toList ∧
    Denotes ["home".toList, "me".toList, "app".toList] "models".toList ["home".toList, "me".toList, "app".toList, "models".toList] ∧
    resolve (path ["home".toList, "me".toList, "app".toList]) "./**/*".toList =
      some (path ["home".toList, "me".toList, "app".toList] ++ "/**/*.go".toList) ∧
    resolve (path ["home".toList, "me".toList, "app".toList]) "models/*_model.go".toList =
      some (path ["home".toList, "me".toList, "app".toList, "models".toList] ++ '/' :: ([] ++ '*' :: ("_model".toList ++ ".go".toList))) := by
  refine ⟨by decide +kernel, by decide +kernel, by decide +kernel, ⟨by decide +kernel, ["models".toList], by decide, by decide +kernel, by decide +kernel, ?_⟩,
    by decide +kernel, by decide +kernel⟩
  rw [if_neg (by decide +kernel)]
  exact .down (by decide +kernel) .done

/-- A working directory with two plus signs: the default source ends in a panic. -/
example (fs : FS) : plan fs "/src/c++/app".toList "./**/*".toList = .panic :=
  C53_plus_plus_panics (pwd := ["src".toList, "c++".toList, "app".toList]) (r := ["src".toList, "c++".toList, "app".toList]) "/src/c".toList "/app".toList
    "/*.go".toList (by decide +kernel) (by decide +kernel) (by decide +kernel) (by decide +kernel) (by decide +kernel) (by decide +kernel)

/-- A directory of one letter: the directory `/app` is read. -/
example (fs : FS) : ∃ c, plan fs "/home/u/app".toList "./*.go".toList = .ofComp "/app".toList [[]] c := by
  have h : resolve (path ["home".toList, "u".toList, "app".toList]) "./*.go".toList =
      some (path (["home".toList] ++ "u".toList :: ["app".toList]) ++ '/' :: ([] ++ '*' :: ([] ++ ".go".toList))) := by decide +kernel
  have hd : DirName "app".toList := by
    refine ⟨'a', 'p', ['p'], by decide +kernel, .inl (by decide), ?_⟩
    intro e he
    left; left; left
    revert e; decide +kernel
  exact (C53_star_elsewhere (fs := { fs with files := fun _ => [] }) (skip := []) (.inl (by decide +kernel)) (by decide +kernel) (by decide +kernel) (by decide +kernel)
    (fun n hn => by rw [List.mem_singleton.1 hn]; exact hd) (by simp) (by simp) h (by simp)).1

end Examples

end Verif.Props

import Verif.Lemmas.Source

/-!
# C53: which files a source selects
-/

namespace Verif.Props

open Verif Verif.Source Verif.Source.Spec

theorem takeDirs_suffix (n : Nat) (s : Source.Text) : ∃ u, s = u ++ (takeDirs n s).2 := by
  induction n generalizing s with
  | zero => exact ⟨[], rfl⟩
  | succ n ih =>
    unfold takeDirs
    dsimp only
    split
    · rename_i t ht
      by_cases hw : isDirName (s.takeWhile isDirI)
      · rw [if_pos hw]
        obtain ⟨u, hu⟩ := ih t
        refine ⟨s.takeWhile isDirI ++ '/' :: u, ?_⟩
        rw [List.append_assoc, List.cons_append, ← hu, ← ht, List.takeWhile_append_dropWhile]
      · rw [if_neg hw]; exact ⟨[], rfl⟩
    · exact ⟨[], rfl⟩

theorem isStarName_star {s : Source.Text} (h : isStarName s = true) : '*' ∈ s := by
  unfold isStarName at h
  split at h
  · rename_i t ht
    exact (List.dropWhile_sublist (p := isWordI)).subset (by rw [ht]; exact List.mem_cons_self ..)
  · cases h

theorem starRoot_none {s : Source.Text} (h : '*' ∉ s) : starRoot s = none := by
  induction s with
  | nil => rfl
  | cons c s ih =>
    have hs : '*' ∉ s := fun hm => h (List.mem_cons_of_mem _ hm)
    rw [starRoot, if_neg, ih hs]
    rintro ⟨_, hst⟩
    obtain ⟨u, hu⟩ := takeDirs_suffix s.length s
    exact hs (by rw [hu]; exact List.mem_append_right _ (isStarName_star hst))

theorem splitStars_none {s : Source.Text} (h : '*' ∉ s) : splitStars s = none := by
  induction s with
  | nil => rfl
  | cons c s ih =>
    have hs : '*' ∉ s := fun hm => h (List.mem_cons_of_mem _ hm)
    rw [splitStars, if_neg fun e => h (by rw [e.1]; exact List.mem_cons_self ..), ih hs]
    rfl

theorem goes_mem {ns ps r : List Source.Text} (h : Goes ns ps r) : ∀ n ∈ r, n ∈ ns ∨ n ∈ ps := by
  induction h with
  | done => exact fun n hn => .inl hn
  | stay _ _ ih => exact fun n hn => (ih n hn).imp_right (List.mem_cons_of_mem _)
  | up _ ih => exact fun n hn => (ih n hn).imp (fun h => List.dropLast_subset _ h) (List.mem_cons_of_mem _)
  | down _ _ ih =>
    intro n hn
    rcases ih n hn with h | h
    · rcases List.mem_append.1 h with h | h
      · exact .inl h
      · exact .inr (by rw [List.mem_singleton.1 h]; exact List.mem_cons_self ..)
    · exact .inr (List.mem_cons_of_mem _ h)

theorem mem_path {ns : List Source.Text} {c : Char} : c ∈ path ns ↔ ∃ n ∈ ns, c = '/' ∨ c ∈ n := by
  induction ns with
  | nil => simp [path]
  | cons n ns ih =>
    rw [show path (n :: ns) = '/' :: (n ++ path ns) from rfl]
    simp only [List.mem_cons, List.mem_append, ih]
    constructor
    · rintro (h | h | ⟨m, hm, h⟩)
      · exact ⟨n, .inl rfl, .inl h⟩
      · exact ⟨n, .inl rfl, .inr h⟩
      · exact ⟨m, .inr hm, h⟩
    · rintro ⟨m, rfl | hm, h | h⟩
      · exact .inl h
      · exact .inr (.inl h)
      · exact .inr (.inr ⟨m, hm, .inl h⟩)
      · exact .inr (.inr ⟨m, hm, .inr h⟩)

theorem mem_rel {ps : List Source.Text} {c : Char} {p : Source.Text} (hp : p ∈ ps) (hc : c ∈ p) : c ∈ rel ps := by
  induction ps with
  | nil => cases hp
  | cons q ps ih =>
    cases ps with
    | nil => rw [List.mem_singleton.1 hp] at hc; exact hc
    | cons q' ps =>
      show c ∈ q ++ '/' :: rel (q' :: ps)
      rcases List.mem_cons.1 hp with rfl | hp
      · exact List.mem_append_left _ hc
      · exact List.mem_append_right _ (List.mem_cons_of_mem _ (ih hp))

theorem addGo_of {t : Source.Text} (h : '*' ∉ t) : addGo t = t :=
  if_neg fun e => h (List.mem_of_getLast? e)

section

variable {pwd r : List Source.Text} {src s : Source.Text} {fs : FS} {skip : List Source.Text}

theorem denotes_parts (h : Denotes pwd s r) : Goes (if s.head? = some '/' then [] else pwd) (parts s) r := by
  obtain ⟨_, ps, h1, h2, h3, h4⟩ := h
  have e : parts s = ps := by rw [h3]; exact parts_rel h1 h2
  rw [e]; exact h4

/-- What becomes of a source without stars. -/
theorem resolve_means (hpwd : ∀ n ∈ pwd, Name n) (hstar : '*' ∉ path pwd) (ht : trimSpace src = s) (hs : '*' ∉ s)
    (hd : Denotes pwd s r) (hr : r ≠ []) (hdot : ¬ Dotted s) : ∃ t, resolve (path pwd) src = some t ∧ Goes [] (parts t) r ∧ '*' ∉ t ∧
      (s = ['.'] ∧ t = path pwd ∨ (∃ a, s = '.' :: '/' :: a ∧ t = path pwd ++ '/' :: a) ∨ (∃ a, s = '/' :: a ∧ t = s) ∨
        (s.head? ≠ some '.' ∧ s.head? ≠ some '/' ∧ t = path r)) := by
  have hg := denotes_parts hd
  have hne : s ≠ [] := hd.1
  rw [resolve, ht, if_neg hne, absolute]
  by_cases h1 : s = ['.']
  · rw [if_pos h1, addGo_of hstar]
    refine ⟨_, rfl, ?_, hstar, .inl ⟨h1, rfl⟩⟩
    subst h1
    have e : r = pwd := goes_functional hg (.stay (.inr rfl) .done)
    rw [e]
    exact goes_path hpwd
  rw [if_neg h1]
  by_cases h2 : s.head? = some '.'
  · rw [if_pos h2]
    cases hs' : s with
    | nil => exact absurd hs' hne
    | cons c a =>
      rw [hs'] at h2
      cases h2
      cases a with
      | nil => exact absurd hs' h1
      | cons d a =>
        have hd' : d = '/' := Decidable.by_contra fun hn => hdot ⟨d, a, hs', hn⟩
        subst hd'
        have hst : '*' ∉ path pwd ++ '/' :: a := by
          intro hm
          rcases List.mem_append.1 hm with h | h
          · exact hstar h
          · exact hs (by rw [hs']; exact List.mem_cons_of_mem _ h)
        rw [List.tail_cons, addGo_of hst]
        refine ⟨_, rfl, ?_, hst, .inr (.inl ⟨a, rfl, rfl⟩)⟩
        rw [hs'] at hg
        rw [parts_append]
        have e : parts ('.' :: '/' :: a) = ['.'] :: parts a := parts_append ['.'] a
        rw [e] at hg
        refine goes_append (goes_path hpwd) ?_
        cases hg with
        | stay _ h => exact h
        | down h _ => exact absurd rfl h.2.2.1
  rw [if_neg h2]
  by_cases h3 : s.head? = some '/'
  · rw [if_pos h3, addGo_of hs]
    refine ⟨_, rfl, ?_, hs, .inr (.inr (.inl ?_))⟩
    · rw [if_pos h3] at hg; exact hg
    · cases hs' : s with
      | nil => exact absurd hs' hne
      | cons c a => rw [hs'] at h3; cases h3; exact ⟨a, rfl, rfl⟩
  · rw [if_neg h3] at hg
    have e := join_goes hpwd hne hg hr
    have hst : '*' ∉ path r := by
      intro hm
      obtain ⟨n, hn, h | h⟩ := mem_path.1 hm
      · cases h
      · rcases goes_mem hg n hn with h' | h'
        · exact hstar (mem_path.2 ⟨n, h', .inr h⟩)
        · refine hs ?_
          obtain ⟨_, ps, g1, g2, g3, _⟩ := hd
          have e : parts s = ps := by rw [g3]; exact parts_rel g1 g2
          rw [g3]
          rw [e] at h'
          exact mem_rel h' h
    rw [if_neg h3, e, addGo_of hst]
    exact ⟨_, rfl, goes_path (goes_names hg hpwd), hst, .inr (.inr (.inr ⟨h2, h3, rfl⟩))⟩

theorem plan_plain {t : Source.Text} (h : resolve (path pwd) src = some t) (hs : '*' ∉ t) : plan fs (path pwd) src =
    match fs.stat t with
    | none => .skip
    | some true => .job t [[]] (.folder t)
    | some false => .job (dirOf t) [[]] (.file (join (dirOf t) ((parts t).getLast?.getD []))) := by
  unfold plan
  rw [h]
  simp only [splitStars_none hs, starRoot_none hs]
  rfl

theorem mem_filesOf {root : Source.Text} {m : Matcher} {f : Source.Text} : f ∈ filesOf fs skip (.job root [[]] m) ↔
    join root [] ∉ skip ∧ (∃ n ∈ fs.files (join root []), f = join root [] ++ '/' :: n) ∧ m.test f = true := by
  show f ∈ List.flatMap _ [[]] ↔ _
  rw [List.flatMap_cons, List.flatMap_nil, List.append_nil]
  by_cases hk : join root [] ∈ skip
  · simp [hk]
  · rw [if_neg hk, List.mem_filter, List.mem_map]
    simp only [hk, not_false_eq_true, true_and]
    constructor
    · rintro ⟨⟨n, hn, rfl⟩, h⟩; exact ⟨⟨n, hn, rfl⟩, h⟩
    · rintro ⟨⟨n, hn, rfl⟩, h⟩; exact ⟨⟨n, hn, rfl⟩, h⟩

theorem join_self {t : Source.Text} (h : Goes [] (parts t) r) (hr : r ≠ []) (hne : t ≠ []) : join t [] = path r := by
  unfold join
  rw [if_neg fun e => hne e.1]
  refine clean_goes ?_ hr
  rw [parts_append]
  exact goes_append h (.stay (.inl rfl) .done)

/-- C53 for folders, exactly: of the files in the folder, those whose text starts with that of the source made absolute. -/
theorem C53_folder_iff {t : Source.Text} (ht : resolve (path pwd) src = some t) (hs : '*' ∉ t) (hg : Goes [] (parts t) r) (hr : r ≠ [])
    (hne : t ≠ []) (hdir : fs.stat t = some true) (hk : path r ∉ skip) (f : Source.Text) :
    f ∈ filesOf fs skip (plan fs (path pwd) src) ↔ ∃ n ∈ fs.files (path r), f = path r ++ '/' :: n ∧ t <+: f := by
  rw [plan_plain ht hs, hdir]
  simp only [mem_filesOf, join_self hg hr hne, hk, not_false_eq_true, true_and, Matcher.test, List.isPrefixOf_iff_prefix]
  constructor
  · rintro ⟨⟨n, hn, rfl⟩, h⟩; exact ⟨n, hn, rfl, h⟩
  · rintro ⟨n, hn, rfl, h⟩; exact ⟨⟨n, hn, rfl⟩, h⟩

/-- C53 for folders: a source selects exactly the files in the folder it denotes, if it starts with a name, or consists of names after an
optional dot, with at most one slash at the end.  Full statement: for all sources that denote a folder.  Missing: see `C53_dotdot_nothing`
and `C53_parent_skipped`. -/
theorem C53_folder_partial (hpwd : ∀ n ∈ pwd, Name n) (hpn : pwd ≠ []) (hstar : '*' ∉ path pwd) (ht : trimSpace src = s) (hs : '*' ∉ s)
    (hd : Denotes pwd s r) (hr : r ≠ [])
    (hform : (s.head? ≠ some '.' ∧ s.head? ≠ some '/') ∨
      ∃ ms sl, (∀ m ∈ ms, Name m) ∧ (sl = [] ∨ sl = ['/']) ∧ (s = '.' :: (path ms ++ sl) ∨ (ms ≠ [] ∧ s = path ms ++ sl)))
    (hdir : ∀ t, clean t = path r → fs.stat t = some true) (hk : path r ∉ skip) (f : Source.Text) :
    f ∈ filesOf fs skip (plan fs (path pwd) src) ↔ ∃ n ∈ fs.files (path r), f = path r ++ '/' :: n := by
  have hdot : ¬ Dotted s := by
    rintro ⟨c, a, rfl, hc⟩
    rcases hform with ⟨h, _⟩ | ⟨ms, sl, hms, hsl, h | ⟨hm, h⟩⟩
    · exact h rfl
    · rw [List.cons.injEq] at h
      cases ms with
      | nil =>
        rcases hsl with rfl | rfl
        · cases h.2
        · exact hc (List.cons.inj h.2).1
      | cons m ms => exact hc (List.cons.inj h.2).1
    · cases ms with
      | nil => exact hm rfl
      | cons m ms => exact absurd (List.cons.inj h).1 (by decide)
  obtain ⟨t, h1, h2, h3, h4⟩ := resolve_means hpwd hstar ht hs hd hr hdot
  have hne : t ≠ [] := by
    rintro rfl
    exact hr (goes_functional h2 (.stay (.inl rfl) .done))
  rw [C53_folder_iff h1 h3 h2 hr hne (hdir t (clean_goes h2 hr)) hk]
  -- the text of the source is that of the folder, up to a slash at the end
  have key : t = path r ∨ t = path r ++ ['/'] := by
    have fin : ∀ (ns : List Source.Text) (sl : Source.Text), (∀ n ∈ ns, Name n) → (sl = [] ∨ sl = ['/']) → ns ≠ [] → t = path ns ++ sl →
        t = path r ∨ t = path r ++ ['/'] := by
      rintro ns sl hns (rfl | rfl) hnn e
      · rw [List.append_nil] at e
        rw [e] at h2 ⊢
        rw [goes_functional h2 (goes_path hns)]; exact .inl rfl
      · rw [e, parts_append] at h2
        rw [goes_functional h2 (goes_append (goes_path hns) (.stay (.inl rfl) .done))]; exact .inr e
    rcases h4 with ⟨_, rfl⟩ | ⟨a, ha, hta⟩ | ⟨a, ha, hta⟩ | ⟨_, _, e⟩
    · exact fin pwd [] hpwd (.inl rfl) hpn (by simp)
    · rcases hform with ⟨h, _⟩ | ⟨ms, sl, hms, hsl, h | ⟨hm, h⟩⟩
      · rw [ha] at h; exact absurd rfl h
      · rw [ha, List.cons.injEq] at h
        refine fin (pwd ++ ms) sl ?_ hsl (by simp [hpn]) ?_
        · intro n hn
          rcases List.mem_append.1 hn with h | h
          · exact hpwd n h
          · exact hms n h
        · rw [hta, h.2, path_append, List.append_assoc]
      · cases ms with
        | nil => exact absurd rfl hm
        | cons m ms => rw [ha] at h; exact absurd (List.cons.inj h).1 (by decide)
    · rcases hform with ⟨_, h⟩ | ⟨ms, sl, hms, hsl, h | ⟨hm, h⟩⟩
      · rw [ha] at h; exact absurd rfl h
      · rw [ha] at h; exact absurd (List.cons.inj h).1 (by decide)
      · exact fin ms sl hms hsl hm (by rw [hta, h])
    · exact .inl e
  constructor
  · rintro ⟨n, hn, e, _⟩; exact ⟨n, hn, e⟩
  · rintro ⟨n, hn, rfl⟩
    refine ⟨n, hn, rfl, ?_⟩
    rcases key with e | e
    · rw [e]; exact List.prefix_append _ _
    · rw [e]; exact ⟨n, by simp⟩

/-- C53 is false of the code for folders written with `..` after a dot or slash: nothing is selected. -/
theorem C53_dotdot_nothing (hpwd : ∀ n ∈ pwd, Name n) (hstar : '*' ∉ path pwd) (ht : trimSpace src = s) (hs : '*' ∉ s)
    (hd : Denotes pwd s r) (hr : r ≠ []) (a b : Source.Text) (hform : s = '.' :: '/' :: (a ++ "/../".toList ++ b) ∨ s = '/' :: (a ++ "/../".toList ++ b))
    (hdir : ∀ t, clean t = path r → fs.stat t = some true) (hk : path r ∉ skip) (hfiles : ∀ n ∈ fs.files (path r), Name n) :
    filesOf fs skip (plan fs (path pwd) src) = [] := by
  have hdot : ¬ Dotted s := by
    rintro ⟨c, x, rfl, hc⟩
    rcases hform with h | h
    · exact hc (List.cons.inj (List.cons.inj h).2).1
    · exact absurd (List.cons.inj h).1 (by decide)
  obtain ⟨t, h1, h2, h3, h4⟩ := resolve_means hpwd hstar ht hs hd hr hdot
  have hne : t ≠ [] := by
    rintro rfl
    exact hr (goes_functional h2 (.stay (.inl rfl) .done))
  have key : ∃ p q, t = p ++ '/' :: ('.' :: '.' :: '/' :: q) := by
    rcases h4 with ⟨e, _⟩ | ⟨x, hx, hta⟩ | ⟨x, hx, hta⟩ | ⟨e, e', _⟩
    · rcases hform with h | h <;> rw [h] at e <;> cases e
    · rcases hform with h | h
      · rw [hx] at h
        simp only [List.cons.injEq, true_and] at h
        exact ⟨path pwd ++ '/' :: a, b, by rw [hta, h]; simp⟩
      · rw [hx] at h; exact absurd (List.cons.inj h).1 (by decide)
    · rcases hform with h | h
      · rw [hx] at h; exact absurd (List.cons.inj h).1 (by decide)
      · exact ⟨'/' :: a, b, by rw [hta, h]; simp⟩
    · rcases hform with h | h
      · rw [h] at e; exact absurd rfl e
      · rw [h] at e'; exact absurd rfl e'
  rw [List.eq_nil_iff_forall_not_mem]
  intro f hf
  obtain ⟨n, hn, rfl, w, hw⟩ := (C53_folder_iff h1 h3 h2 hr hne (hdir t (clean_goes h2 hr)) hk f).1 hf
  obtain ⟨p, q, rfl⟩ := key
  have hnames : ∀ m ∈ r ++ [n], Name m := by
    intro m hm
    rcases List.mem_append.1 hm with h | h
    · exact goes_names h2 (by simp) m h
    · rw [List.mem_singleton.1 h]; exact hfiles n hn
  have e := parts_path fun m hm => (hnames m hm).2.1
  rw [path_snoc, ← hw, List.append_assoc, List.cons_append, parts_append,
    show ('.' :: '.' :: '/' :: q) ++ w = ['.', '.'] ++ '/' :: (q ++ w) by rfl, parts_append, parts_name (n := ['.', '.']) (by decide)] at e
  have hm : ['.', '.'] ∈ [] :: (r ++ [n]) := by rw [← e]; simp
  rcases List.mem_cons.1 hm with h | h
  · cases h
  · exact (hnames _ h).2.2.2 rfl

/-- C53 is false of the code for sources outside of the working directory written with `..`: the folder is looked for beside the
working directory, under its name with a dot at the end; if there is none, the source is passed over in silence. -/
theorem C53_parent_skipped (hstar : '*' ∉ path pwd) (x : Source.Text) (ht : trimSpace src = '.' :: '.' :: x) (hx : '*' ∉ x)
    (hno : fs.stat (path pwd ++ '.' :: x) = none) : plan fs (path pwd) src = .skip := by
  have hst : '*' ∉ path pwd ++ '.' :: x := by
    intro hm
    rcases List.mem_append.1 hm with h | h
    · exact hstar h
    · rcases List.mem_cons.1 h with h | h
      · exact absurd h (by decide)
      · exact hx h
  have h1 : resolve (path pwd) src = some (path pwd ++ '.' :: x) := by
    rw [resolve, ht, if_neg (by simp), absolute, if_neg (by simp), if_pos (by rfl), List.tail_cons, addGo_of hst]
  rw [plan_plain h1 hst, hno]

/-- The same for names starting with a dot: the dot is dropped. -/
theorem C53_hidden_skipped (hstar : '*' ∉ path pwd) (x : Source.Text) (hx0 : x ≠ []) (ht : trimSpace src = '.' :: x) (hx : '*' ∉ x)
    (hno : fs.stat (path pwd ++ x) = none) : plan fs (path pwd) src = .skip := by
  have hst : '*' ∉ path pwd ++ x := by
    intro hm
    rcases List.mem_append.1 hm with h | h
    · exact hstar h
    · exact hx h
  have h1 : resolve (path pwd) src = some (path pwd ++ x) := by
    rw [resolve, ht, if_neg (by simp), absolute, if_neg (by simp [hx0]), if_pos (by rfl), List.tail_cons, addGo_of hst]
  rw [plan_plain h1 hst, hno]

theorem parts_split {t : Source.Text} {ps : List Source.Text} {n : Source.Text} (h : parts t = ps ++ [n]) (hps : ps ≠ []) :
    ∃ a, t = a ++ '/' :: n ∧ parts a = ps := by
  induction t generalizing ps with
  | nil =>
    cases ps with
    | nil => exact absurd rfl hps
    | cons p ps => simp [parts] at h
  | cons c t ih =>
    by_cases hc : c = '/'
    · subst hc
      rw [parts_slash] at h
      cases ps with
      | nil => exact absurd rfl hps
      | cons p ps =>
        rw [List.cons_append, List.cons.injEq] at h
        obtain ⟨rfl, h⟩ := h
        cases ps with
        | nil =>
          rw [List.nil_append] at h
          refine ⟨[], ?_, rfl⟩
          have : t = n := by
            clear ih hps
            induction t generalizing n with
            | nil => simp only [parts, List.cons.injEq, and_true] at h; exact h
            | cons d t ih =>
              rw [parts] at h
              split at h
              · simp only [List.cons.injEq] at h
                exact absurd h.2 (parts_ne_nil t)
              · cases hp : parts t with
                | nil => exact absurd hp (parts_ne_nil t)
                | cons q qs =>
                  rw [hp] at h
                  simp only [List.cons.injEq] at h
                  rw [← h.1, ih (by rw [hp, h.2])]
          rw [this]; rfl
        | cons q qs =>
          obtain ⟨a, ha, hp⟩ := ih h (by simp)
          exact ⟨'/' :: a, by rw [ha]; rfl, by rw [parts_slash, hp]⟩
    · rw [parts, if_neg hc] at h
      cases hp : parts t with
      | nil => exact absurd hp (parts_ne_nil t)
      | cons q qs =>
        rw [hp] at h
        cases ps with
        | nil => exact absurd rfl hps
        | cons p ps =>
          rw [List.cons_append, List.cons.injEq] at h
          obtain ⟨a, ha, hpa⟩ := ih (ps := q :: ps) (by rw [hp, h.2]; rfl) (by simp)
          refine ⟨c :: a, by rw [ha]; rfl, ?_⟩
          rw [parts, if_neg hc, hpa, ← h.1]

theorem dirOf_split {a n : Source.Text} (h : '/' ∉ n) : dirOf (a ++ '/' :: n) = clean (a ++ ['/']) := by
  unfold dirOf
  congr 1
  rw [List.reverse_append, List.reverse_cons, List.append_assoc, List.dropWhile_append_of_pos, List.singleton_append,
    List.dropWhile_cons_of_neg (by simp), List.reverse_cons, List.reverse_reverse]
  intro c hc
  rw [List.mem_reverse] at hc
  simp only [bne_iff_ne, ne_eq]
  rintro rfl
  exact h hc

/-- C53 for files: a source that denotes a file selects exactly that file, however it is written, unless it starts with a dot that is not
followed by a slash.  Full statement: for all sources that denote a file.  Missing: see `C53_parent_skipped`. -/
theorem C53_file_partial {n : Source.Text} (hpwd : ∀ n ∈ pwd, Name n) (hstar : '*' ∉ path pwd) (ht : trimSpace src = s) (hs : '*' ∉ s)
    (hdot : ¬ Dotted s) (hd : Denotes pwd s (r ++ [n])) (hn : Name n) (hlast : s = n ∨ ∃ a, s = a ++ '/' :: n) (hr : r ≠ [])
    (hfile : ∀ t, clean t = path (r ++ [n]) → fs.stat t = some false) (hk : path r ∉ skip) (f : Source.Text) :
    f ∈ filesOf fs skip (plan fs (path pwd) src) ↔ n ∈ fs.files (path r) ∧ f = path r ++ '/' :: n := by
  obtain ⟨t, h1, h2, h3, h4⟩ := resolve_means hpwd hstar ht hs hd (by simp) hdot
  have hsl : ∃ ps, parts s = ps ++ [n] := by
    rcases hlast with rfl | ⟨a, rfl⟩
    · exact ⟨[], parts_name hn.2.1⟩
    · exact ⟨parts a, by rw [parts_append, parts_name hn.2.1]⟩
  have hpt : ∃ ps, parts t = ps ++ [n] ∧ ps ≠ [] := by
    obtain ⟨ps, hps⟩ := hsl
    rcases h4 with ⟨e, _⟩ | ⟨a, ha, rfl⟩ | ⟨a, ha, rfl⟩ | ⟨_, _, rfl⟩
    · rw [e] at hps
      have : parts ['.'] = [['.']] := rfl
      rw [this] at hps
      cases ps with
      | nil => exact absurd (List.cons.inj hps).1.symm hn.2.2.1
      | cons q qs => simp at hps
    · rw [ha, show '.' :: '/' :: a = ['.'] ++ '/' :: a from rfl, parts_append] at hps
      cases ps with
      | nil =>
        have := congrArg List.length hps
        simp only [List.length_append, List.length_nil, List.length_cons, show (parts ['.']).length = 1 from rfl] at this
        exact absurd (List.length_eq_zero_iff.1 (by omega : (parts a).length = 0)) (parts_ne_nil a)
      | cons q qs =>
        rw [show parts ['.'] = [['.']] from rfl] at hps
        simp only [List.cons_append, List.nil_append, List.cons.injEq] at hps
        exact ⟨parts (path pwd) ++ qs, by rw [parts_append, hps.2]; simp, by simp [parts_ne_nil]⟩
    · refine ⟨ps, hps, ?_⟩
      rintro rfl
      rw [ha, parts_slash, List.nil_append, List.cons.injEq] at hps
      exact parts_ne_nil a hps.2
    · refine ⟨[] :: r, ?_, by simp⟩
      rw [parts_path]
      · rfl
      · intro m hm
        refine (goes_names (denotes_parts hd) ?_ m hm).2.1
        split
        · simp
        · exact hpwd
  obtain ⟨ps, hps, hpsne⟩ := hpt
  obtain ⟨a, rfl, ha⟩ := parts_split hps hpsne
  have hg : Goes [] (parts a) r := by
    obtain ⟨r', hr'⟩ := goes_total [] (parts a) (parts_no_slash a)
    have := goes_append hr' (.down hn .done)
    rw [parts_append, parts_name hn.2.1] at h2
    have e := goes_functional h2 this
    rw [(List.append_inj_left' e rfl)]
    exact hr'
  have hdirOf : dirOf (a ++ '/' :: n) = path r := by
    rw [dirOf_split hn.2.1]
    refine clean_goes ?_ hr
    rw [parts_append]
    exact goes_append hg (.stay (.inl rfl) .done)
  have hrn : ∀ m ∈ r, Name m := goes_names hg (by simp)
  have hlast' : ((parts (a ++ '/' :: n)).getLast?.getD []) = n := by rw [hps]; simp
  have hj : join (path r) n = path (r ++ [n]) :=
    join_goes hrn hn.1 (by rw [parts_name hn.2.1]; exact .down hn .done) (by simp)
  rw [plan_plain h1 h3, hfile _ (clean_goes h2 (by simp)), hdirOf, hlast', hj]
  simp only [mem_filesOf, join_path hrn hr, hk, not_false_eq_true, true_and, Matcher.test, beq_iff_eq, path_snoc]
  constructor
  · rintro ⟨⟨m, hm, rfl⟩, e⟩
    have e := List.append_cancel_left e
    rw [List.cons.injEq] at e
    rw [← e.2]; exact ⟨hm, rfl⟩
  · rintro ⟨hm, rfl⟩; exact ⟨⟨n, hm, rfl⟩, rfl⟩

end

end Verif.Props

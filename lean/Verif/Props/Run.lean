import Verif.Model.Run

/-!
# C76: what is left of generated code after a run
-/

namespace Verif.Props

open Verif Verif.Source

variable {w : World} {g g' : Code} {m : Matcher}

/-- The directories a source makes the generator read. -/
def reads (w : World) : Plan → List (Source.Text × Matcher)
  | .job root dirs m => ((dirs.map (join root)).filter fun d => d ∉ w.skip ∧ w.isEmpty d = false).map fun d => (d, m)
  | _ => []

/-- The code for the structs that match, no file if there are none. -/
def codeFor (w : World) (m : Matcher) (d : Source.Text) : Option (List (Source.Text × Source.Text)) :=
  if matching w m d = [] then none else some (matching w m d)

theorem visit_ok {d : Source.Text} (h : visit w m g d = (true, g')) :
    g' = if d ∉ w.skip ∧ w.isEmpty d = false then setCode g d (codeFor w m d) else g := by
  unfold visit at h
  by_cases h1 : d ∈ w.skip
  · rw [if_pos h1] at h
    cases h
    rw [if_neg fun e => e.1 h1]
  rw [if_neg h1] at h
  cases h2 : w.isEmpty d with
  | true =>
    rw [h2, if_pos rfl] at h
    cases h
    simp
  | false =>
    rw [h2, if_neg (by simp)] at h
    rw [if_pos ⟨h1, rfl⟩]
    unfold codeFor
    dsimp only at h
    by_cases h3 : matching w m d = []
    · rw [if_pos h3] at h ⊢
      cases h; rfl
    · rw [if_neg h3] at h ⊢
      by_cases h4 : ((matching w m d).any fun x => w.rejects x.1 x.2) = true
      · rw [if_pos h4] at h; cases h
      · rw [if_neg h4] at h
        cases h
        funext d'
        unfold setCode
        by_cases e : d' = d
        · simp [e]
        · simp [e]

/-- Writing the code of one directory after the other. -/
def writes (w : World) (g : Code) (rs : List (Source.Text × Matcher)) : Code :=
  rs.foldl (fun g r => setCode g r.1 (codeFor w r.2 r.1)) g

theorem visits_ok {ds : List Source.Text} (h : visits w m g ds = (true, g')) :
    g' = writes w g ((ds.filter fun d => d ∉ w.skip ∧ w.isEmpty d = false).map fun d => (d, m)) := by
  induction ds generalizing g with
  | nil => cases h; rfl
  | cons d ds ih =>
    rw [visits] at h
    cases hv : visit w m g d with
    | mk b g1 =>
      rw [hv] at h
      cases b with
      | false => cases h
      | true =>
        have h := ih h
        have e := visit_ok hv
        rw [h]
        by_cases hd : d ∉ w.skip ∧ w.isEmpty d = false
        · rw [List.filter_cons_of_pos (by simpa using hd), e, if_pos hd]; rfl
        · rw [List.filter_cons_of_neg (by simpa using hd), e, if_neg hd]

theorem run_ok {ps : List Plan} (h : run w g ps = (true, g')) : g' = writes w g (ps.flatMap (reads w)) := by
  induction ps generalizing g with
  | nil => cases h; rfl
  | cons p ps ih =>
    cases p with
    | error => exact absurd (congrArg Prod.fst h) (by simp [run])
    | panic => exact absurd (congrArg Prod.fst h) (by simp [run])
    | other => exact absurd (congrArg Prod.fst h) (by simp [run])
    | skip => exact ih (by simpa [run] using h)
    | job root dirs m =>
      simp only [run] at h
      cases hv : visits w m g (dirs.map (join root)) with
      | mk b g1 =>
        rw [hv] at h
        cases b with
        | false => cases h
        | true =>
          rw [ih h, visits_ok hv, List.flatMap_cons]
          unfold writes
          rw [List.foldl_append]
          rfl

theorem writes_of_not_mem {rs : List (Source.Text × Matcher)} {d : Source.Text} (h : ∀ r ∈ rs, r.1 ≠ d) : writes w g rs d = g d := by
  induction rs generalizing g with
  | nil => rfl
  | cons r rs ih =>
    show writes w (setCode g r.1 _) rs d = _
    rw [ih fun x hx => h x (List.mem_cons_of_mem _ hx)]
    exact if_neg fun e => h r (List.mem_cons_self ..) e.symm

theorem writes_last {rs₁ rs₂ : List (Source.Text × Matcher)} {d : Source.Text} (h : ∀ r ∈ rs₂, r.1 ≠ d) :
    writes w g (rs₁ ++ (d, m) :: rs₂) d = codeFor w m d := by
  unfold writes
  rw [List.foldl_append, List.foldl_cons]
  have := writes_of_not_mem (w := w) (g := setCode (rs₁.foldl (fun g r => setCode g r.1 (codeFor w r.2 r.1)) g) d (codeFor w m d)) h
  unfold writes at this
  rw [this]
  exact if_pos rfl

/-- C76, exactly: after a run that succeeds, the code in a directory is that for the structs selected by the last source that reads the directory;
directories that are not read keep theirs. -/
theorem C76_last_source {ps : List Plan} (h : run w g ps = (true, g')) (d : Source.Text) :
    ((∀ r ∈ ps.flatMap (reads w), r.1 ≠ d) → g' d = g d) ∧
    ∀ rs₁ rs₂ m, ps.flatMap (reads w) = rs₁ ++ (d, m) :: rs₂ → (∀ r ∈ rs₂, r.1 ≠ d) → g' d = codeFor w m d := by
  rw [run_ok h]
  refine ⟨writes_of_not_mem, ?_⟩
  rintro rs₁ rs₂ m e h
  rw [e]
  exact writes_last h

/-- The last time a directory is read. -/
theorem last_read {d : Source.Text} : ∀ {rs : List (Source.Text × Matcher)} {m : Matcher}, (d, m) ∈ rs →
    ∃ rs₁ rs₂ m', rs = rs₁ ++ (d, m') :: rs₂ ∧ ∀ r ∈ rs₂, r.1 ≠ d
  | [], m, h => absurd h (List.not_mem_nil)
  | r :: rs, m, h => by
    by_cases hl : ∃ m', (d, m') ∈ rs
    · obtain ⟨m', h'⟩ := hl
      obtain ⟨a, b, x, rfl, hb⟩ := last_read h'
      exact ⟨r :: a, b, x, rfl, hb⟩
    · rcases List.mem_cons.1 h with rfl | h'
      · exact ⟨[], rs, m, rfl, fun r hr e => hl ⟨r.2, by rw [← e]; exact hr⟩⟩
      · exact absurd ⟨m, h'⟩ hl

theorem mem_codeFor {d f s : Source.Text} {l : List (Source.Text × Source.Text)} (h : codeFor w m d = some l) :
    (f, s) ∈ l ↔ ∃ n ∈ w.fs.files d, f = d ++ '/' :: n ∧ m.test f = true ∧ s ∈ w.structs f := by
  unfold codeFor at h
  split at h
  · cases h
  · cases h
    unfold matching
    rw [List.mem_flatMap]
    constructor
    · rintro ⟨n, hn, h⟩
      by_cases ht : m.test (d ++ '/' :: n) = true
      · rw [if_pos ht] at h
        obtain ⟨s', hs, e⟩ := List.mem_map.1 h
        cases e
        exact ⟨n, hn, rfl, ht, hs⟩
      · rw [if_neg ht] at h
        cases h
    · rintro ⟨n, hn, rfl, ht, hs⟩
      refine ⟨n, hn, ?_⟩
      rw [if_pos ht]
      exact List.mem_map.2 ⟨s, hs, rfl⟩

/-- There is generated code for a struct of a file of a directory. -/
def HasCode (g : Code) (d f s : Source.Text) : Prop := ∃ l, g d = some l ∧ (f, s) ∈ l

/-- A struct is in a file that a source selects. -/
def Selected (w : World) (m : Matcher) (d n s : Source.Text) : Prop :=
  n ∈ w.fs.files d ∧ m.test (d ++ '/' :: n) = true ∧ s ∈ w.structs (d ++ '/' :: n)

theorem hasCode_codeFor {d n s : Source.Text} (g : Code) (h : g d = codeFor w m d) :
    HasCode g d (d ++ '/' :: n) s ↔ Selected w m d n s := by
  unfold HasCode
  rw [h]
  constructor
  · rintro ⟨l, hl, hm⟩
    obtain ⟨n', hn, e, ht, hs⟩ := (mem_codeFor hl).1 hm
    have e : n = n' := by simpa using e
    subst e
    exact ⟨hn, ht, hs⟩
  · rintro ⟨hn, ht, hs⟩
    cases hc : codeFor w m d with
    | some l => exact ⟨l, rfl, (mem_codeFor hc).2 ⟨n, hn, rfl, ht, hs⟩⟩
    | none =>
      exfalso
      unfold codeFor at hc
      split at hc
      · next h0 =>
        have : (d ++ '/' :: n, s) ∈ matching w m d := by
          refine List.mem_flatMap.2 ⟨n, hn, ?_⟩
          rw [if_pos ht]
          exact List.mem_map.2 ⟨s, hs, rfl⟩
        rw [h0] at this
        cases this
      · cases hc

/-- C76, as far as it holds: after a run that succeeds there is code for every struct that some source selects, if every source that reads
its directory selects it. -/
theorem C76_partial {ps : List Plan} (h : run w g ps = (true, g')) {d n s : Source.Text} {m : Matcher} (hm : (d, m) ∈ ps.flatMap (reads w))
    (hall : ∀ m', (d, m') ∈ ps.flatMap (reads w) → Selected w m' d n s) : HasCode g' d (d ++ '/' :: n) s := by
  obtain ⟨a, b, m', e, hb⟩ := last_read hm
  refine (hasCode_codeFor g' ((C76_last_source h d).2 a b m' e hb)).2 (hall m' ?_)
  rw [e]
  simp

/-- C76 fails for two sources that read the same directory: the code for what only the first selects is lost. -/
theorem C76_lost {ps : List Plan} {rs₁ rs₂ : List (Source.Text × Matcher)} (h : run w g ps = (true, g')) {d n s : Source.Text}
    (hl : ps.flatMap (reads w) = rs₁ ++ (d, m) :: rs₂) (hr : ∀ r ∈ rs₂, r.1 ≠ d) (hn : ¬ Selected w m d n s) :
    ¬ HasCode g' d (d ++ '/' :: n) s :=
  fun hc => hn ((hasCode_codeFor g' ((C76_last_source h d).2 rs₁ rs₂ m hl hr)).1 hc)

/-- C76 fails for code of earlier runs: if the sources select no struct of a directory they read, its generated file is gone. -/
theorem C76_removed {ps : List Plan} (h : run w g ps = (true, g')) {d : Source.Text} {m : Matcher} (hm : (d, m) ∈ ps.flatMap (reads w))
    (hall : ∀ m', (d, m') ∈ ps.flatMap (reads w) → ∀ n s, ¬ Selected w m' d n s) : g' d = none := by
  obtain ⟨a, b, m', e, hb⟩ := last_read hm
  have hs := hall m' (by rw [e]; simp)
  rw [(C76_last_source h d).2 a b m' e hb]
  cases hc : codeFor w m' d with
  | none => rfl
  | some l =>
    exfalso
    cases l with
    | nil => unfold codeFor at hc; split at hc <;> simp_all
    | cons x l =>
      obtain ⟨n, hn, e1, ht, hx⟩ := (mem_codeFor (f := x.1) (s := x.2) hc).1 (List.mem_cons_self ..)
      exact hs n x.2 ⟨hn, e1 ▸ ht, e1 ▸ hx⟩

theorem visit_failed {d : Source.Text} (h : visit w m g d = (false, g')) :
    d ∉ w.skip ∧ w.isEmpty d = false ∧ g' d = none ∧ ∃ n s, Selected w m d n s ∧ w.rejects (d ++ '/' :: n) s = true := by
  unfold visit at h
  by_cases h1 : d ∈ w.skip
  · rw [if_pos h1] at h
    cases h
  rw [if_neg h1] at h
  cases h2 : w.isEmpty d with
  | true => rw [h2, if_pos rfl] at h; cases h
  | false =>
    rw [h2, if_neg (by simp)] at h
    dsimp only at h
    by_cases h3 : matching w m d = []
    · rw [if_pos h3] at h; cases h
    · rw [if_neg h3] at h
      by_cases h4 : ((matching w m d).any fun x => w.rejects x.1 x.2) = true
      · rw [if_pos h4] at h
        cases h
        refine ⟨h1, rfl, if_pos rfl, ?_⟩
        obtain ⟨⟨f, s⟩, hx, hr⟩ := List.any_eq_true.1 h4
        have hc : codeFor w m d = some (matching w m d) := if_neg h3
        obtain ⟨n, hn, e, ht, hs⟩ := (mem_codeFor hc).1 hx
        subst e
        exact ⟨n, s, ⟨hn, ht, hs⟩, hr⟩
      · rw [if_neg h4] at h; cases h

theorem visits_failed {ds : List Source.Text} (h : visits w m g ds = (false, g')) :
    ∃ d ∈ ds, d ∉ w.skip ∧ w.isEmpty d = false ∧ g' d = none ∧ ∃ n s, Selected w m d n s ∧ w.rejects (d ++ '/' :: n) s = true := by
  induction ds generalizing g with
  | nil => cases h
  | cons d ds ih =>
    rw [visits] at h
    cases hv : visit w m g d with
    | mk b g1 =>
      rw [hv] at h
      cases b with
      | false => cases h; exact ⟨d, List.mem_cons_self .., visit_failed hv⟩
      | true =>
        obtain ⟨d', hd, h⟩ := ih h
        exact ⟨d', List.mem_cons_of_mem _ hd, h⟩

/-- C76 fails for runs that fail: if every source could be resolved, a run fails over a struct that is rejected, and the generated file of its
directory is gone, whatever it had. -/
theorem C76_failed {ps : List Plan} (hp : ∀ p ∈ ps, p = .skip ∨ ∃ root dirs m, p = .job root dirs m) (h : run w g ps = (false, g')) :
    ∃ d m, (d, m) ∈ ps.flatMap (reads w) ∧ g' d = none ∧ ∃ n s, Selected w m d n s ∧ w.rejects (d ++ '/' :: n) s = true := by
  induction ps generalizing g with
  | nil => cases h
  | cons p ps ih =>
    have hp' := fun p hp1 => hp p (List.mem_cons_of_mem _ hp1)
    rcases hp p (List.mem_cons_self ..) with rfl | ⟨root, dirs, m, rfl⟩
    · obtain ⟨d, m, hd, h⟩ := ih hp' (by simpa [run] using h)
      exact ⟨d, m, List.mem_flatMap.2 (by
        obtain ⟨p, hp, h⟩ := List.mem_flatMap.1 hd
        exact ⟨p, List.mem_cons_of_mem _ hp, h⟩), h⟩
    · simp only [run] at h
      cases hv : visits w m g (dirs.map (join root)) with
      | mk b g1 =>
        rw [hv] at h
        cases b with
        | false =>
          cases h
          obtain ⟨d, hd, h1, h2, h⟩ := visits_failed hv
          refine ⟨d, m, List.mem_flatMap.2 ⟨_, List.mem_cons_self .., ?_⟩, h⟩
          exact List.mem_map.2 ⟨d, List.mem_filter.2 ⟨hd, by simp [h1, h2]⟩, rfl⟩
        | true =>
          obtain ⟨d, m, hd, h⟩ := ih hp' h
          exact ⟨d, m, List.mem_flatMap.2 (by
            obtain ⟨p, hp, h⟩ := List.mem_flatMap.1 hd
            exact ⟨p, List.mem_cons_of_mem _ hp, h⟩), h⟩

/-! ## An instance: a package `/w/m` with `a.go` and `b.go` -/

/-- A package with two files of a struct each; `B` is what is rejected. -/
def exWorld (bad : Bool) : World where
  fs := { stat := fun p => if p = "/w/m".toList then some true else if p = "/w/m/a.go".toList ∨ p = "/w/m/b.go".toList then some false else none
          below := fun _ => []
          files := fun d => if d = "/w/m".toList then ["a.go".toList, "b.go".toList] else [] }
  skip := ["/w/db".toList]
  isEmpty := fun d => d ≠ "/w/m".toList
  structs := fun f => if f = "/w/m/a.go".toList then ["A".toList] else if f = "/w/m/b.go".toList then ["B".toList] else []
  rejects := fun _ s => bad && s == "B".toList

/-- A run over sources as they are given. -/
def exRun (bad : Bool) (srcs : List String) : Bool × Option (List (Source.Text × Source.Text)) :=
  let r := run (exWorld bad) (fun _ => some [("/w/m/old.go".toList, "Old".toList)]) (srcs.map fun s => plan (exWorld bad).fs "/w".toList s.toList)
  (r.1, r.2 "/w/m".toList)

-- The folder: both; file by file: only the last; a file that is rejected: nothing is left
example : exRun false ["m"] = (true, some [("/w/m/a.go".toList, "A".toList), ("/w/m/b.go".toList, "B".toList)]) := by decide +kernel
example : exRun false ["m/a.go", "m/b.go"] = (true, some [("/w/m/b.go".toList, "B".toList)]) := by decide +kernel
example : exRun true ["m"] = (false, none) := by decide +kernel
example : exRun false ["x"] = (true, some [("/w/m/old.go".toList, "Old".toList)]) := by decide +kernel

end Verif.Props

import Verif.Spec.Methods

/-!
# Property C86: a struct has its own methods after generation, or an error is reported
-/

namespace Verif.Props

open Verif Verif.Methods Verif.Methods.Spec

variable {D : Nat → Struct}

private theorem embedded_eq : embedded D = below D := by
  funext p
  unfold embedded below
  congr 1
  funext e
  cases e.2 <;> simp

private theorem declared_eq (m : Methods.Name) : declared D m = hitsAt D m := by
  funext p
  unfold declared hitsAt
  congr 1
  · by_cases h : m ∈ (D p.id).fields
    · rw [if_pos h]
      cases hf : (D p.id).fields.filter fun f => f = m with
      | nil =>
        rw [List.filter_eq_nil_iff] at hf
        exact absurd (by simp) (hf m h)
      | cons x l => rfl
    · rw [if_neg h]
      have : ((D p.id).fields.filter fun f => f = m) = [] := by
        rw [List.filter_eq_nil_iff]
        intro a ha e
        simp only [decide_eq_true_eq] at e
        exact h (e ▸ ha)
      rw [this]; rfl
  · induction (D p.id).methods with
    | nil => rfl
    | cons x l ih =>
      by_cases h : x.name = m
      · simp [h, ih]
      · simp [h, ih]

private theorem lookup_iff (m : Methods.Name) (h : Hit) : ∀ (n : Nat) (ps : List Place),
    lookup D m n ps = some h ↔ ∃ d, d < n ∧ named D m d ps = [h] ∧ ∀ e, e < d → named D m e ps = [] := by
  intro n
  induction n with
  | zero => intro ps; simp [lookup]
  | succ n ih =>
    intro ps
    have h0 : named D m 0 ps = ps.flatMap (hitsAt D m) := by rw [← declared_eq]; rfl
    have hs : ∀ d, named D m (d + 1) ps = named D m d (ps.flatMap (below D)) := by
      intro d; rw [← embedded_eq]; rfl
    simp only [lookup]
    cases hh : ps.flatMap (hitsAt D m) with
    | nil =>
      simp only
      rw [ih]
      constructor
      · rintro ⟨d, h1, h2, h3⟩
        refine ⟨d + 1, by omega, by rw [hs]; exact h2, ?_⟩
        intro e he
        cases e with
        | zero => rw [h0]; exact hh
        | succ e => rw [hs]; exact h3 e (by omega)
      · rintro ⟨d, h1, h2, h3⟩
        cases d with
        | zero => rw [h0, hh] at h2; cases h2
        | succ d =>
          refine ⟨d, by omega, by rw [← hs]; exact h2, ?_⟩
          intro e he; rw [← hs]; exact h3 (e + 1) (by omega)
    | cons a l =>
      have stop : ∀ d, (∀ e, e < d → named D m e ps = []) → d = 0 := by
        intro d hd
        cases d with
        | zero => rfl
        | succ d => have := hd 0 (by omega); rw [h0, hh] at this; cases this
      cases l with
      | nil =>
        simp only [Option.some.injEq]
        constructor
        · intro e; exact ⟨0, by omega, by rw [h0, hh, e], by intro e he; omega⟩
        · rintro ⟨d, _, h2, h3⟩
          rw [stop d h3, h0, hh] at h2
          simpa using h2
      | cons b l =>
        simp only [reduceCtorEq, false_iff]
        rintro ⟨d, _, h2, h3⟩
        rw [stop d h3, h0, hh] at h2
        simp at h2

private theorem denotes_unique {m : Methods.Name} {ps : List Place} {a b : Hit} (ha : Denotes D m ps a)
    (hb : Denotes D m ps b) : a = b := by
  obtain ⟨d, h1, h2⟩ := ha
  obtain ⟨e, h3, h4⟩ := hb
  rcases Nat.lt_trichotomy d e with h | h | h
  · have := h4 d h; rw [h1] at this; cases this
  · subst h; rw [h1] at h3; simpa using h3
  · have := h2 e h; rw [h3] at this; cases this

private theorem lookup_denotes (m : Methods.Name) (h : Hit) (n : Nat) (ps : List Place)
    (hn : Enough D m n ps) : lookup D m n ps = some h ↔ Denotes D m ps h := by
  rw [lookup_iff]
  constructor
  · rintro ⟨d, _, h2, h3⟩; exact ⟨d, h2, h3⟩
  · rintro ⟨d, h2, h3⟩
    refine ⟨d, ?_, h2, h3⟩
    rcases Nat.lt_or_ge d n with hd | hd
    · exact hd
    · rw [hn d hd h3] at h2
      cases h2

private theorem present_iff (n id o : Nat) (ptr : Bool) (m : Methods.Name)
    (hn : Enough D m n [⟨id, ptr⟩]) :
    missingMethod D n id ptr m = .present o ↔ Runs D id ptr m o := by
  unfold missingMethod Runs
  constructor
  · intro h
    cases hl : lookup D m n [⟨id, ptr⟩] with
    | none => simp [hl] at h
    | some x =>
      cases x with
      | field => simp [hl] at h
      | method o' sig p ind =>
        simp only [hl] at h
        split at h
        · cases h
        · rename_i hc
          simp only [Answer.present.injEq] at h
          subst h
          refine ⟨p, ind, ?_, ?_⟩
          · have : sig = true := by revert hc; cases sig <;> simp
            subst this
            exact (lookup_denotes m _ n _ hn).mp hl
          · revert hc; cases p <;> cases ind <;> simp
  · rintro ⟨p, ind, h1, h2⟩
    rw [(lookup_denotes m _ n _ hn).mpr h1]
    simp only
    rw [if_neg]
    revert h2; cases p <;> cases ind <;> simp

private theorem named_zero (m : Methods.Name) (p : Place) : named D m 0 [p] = hitsAt D m p := by
  simp [named, level, declared_eq]

private theorem own_of_declared {id : Nat} {ptr : Bool} {m : Methods.Name} {p : Bool} (hf : m ∉ (D id).fields)
    (hm : (D id).methods.filter (fun x => x.name = m) = [⟨m, true, p⟩]) (hp : p = true → ptr = true) :
    Runs D id ptr m id :=
  ⟨p, ptr, ⟨0, by rw [named_zero]; simp [hitsAt, hf, hm], fun e he => by omega⟩, hp⟩

/-- C86, when a struct has its own method after generation.  The struct `id` has no field of this name, and declares at
most one method of this name; a call runs its own method exactly if it declared a fitting one itself, or if nothing of
this name was found in the structs it embeds that counts as a method. -/
theorem C86_own_iff_partial (strict : Bool) (n id : Nat) (ptr : Bool) (m : Methods.Name)
    (hn : Enough D m n [⟨id, ptr⟩]) (hf : m ∉ (D id).fields)
    (hm : ((D id).methods.filter fun x => x.name = m).length ≤ 1) (D' : Nat → Struct)
    (hg : generate D strict n id m ptr true = some D') :
    Runs D' id ptr m id ↔
      Runs D id ptr m id ∨
        ((D id).methods.filter (fun x => x.name = m) = [] ∧
          ∀ o sig p ind, ¬ Denotes D m [⟨id, ptr⟩] (.method o sig p ind)) := by
  unfold generate at hg
  cases ha : missingMethod D n id ptr m with
  | present o =>
    simp only [ha, act, Option.some.injEq] at hg
    subst hg
    have := (present_iff n id o ptr m hn).mp ha
    refine ⟨Or.inl, ?_⟩
    rintro (h | h)
    · exact h
    · obtain ⟨p, ind, h1, _⟩ := this
      exact absurd h1 (h.2 _ _ _ _)
  | wrongType =>
    have hD : D = D' := by
      cases strict with
      | true => simp [ha, act] at hg
      | false => simpa [ha, act] using hg
    subst hD
    refine ⟨Or.inl, ?_⟩
    rintro (h | h)
    · exact h
    · exfalso
      unfold missingMethod at ha
      cases hl : lookup D m n [⟨id, ptr⟩] with
      | none => simp [hl] at ha
      | some x =>
        cases x with
        | field => simp [hl] at ha
        | method o' sig p ind => exact h.2 _ _ _ _ ((lookup_denotes m _ n _ hn).mp hl)
  | missing =>
    simp only [ha, act, if_true, Option.some.injEq] at hg
    subst hg
    have hnone : ∀ o sig p ind, ¬ Denotes D m [⟨id, ptr⟩] (.method o sig p ind) := by
      intro o sig p ind hd
      rw [← lookup_denotes m _ n _ hn] at hd
      unfold missingMethod at ha
      simp only [hd] at ha
      split at ha <;> cases ha
    have hfilter : (D id).methods.filter (fun x => x.name = m) = [] := by
      cases hx : (D id).methods.filter (fun x => x.name = m) with
      | nil => rfl
      | cons x l =>
        rw [hx] at hm
        have hl : l = [] := by
          cases l with
          | nil => rfl
          | cons => simp at hm
        subst hl
        exfalso
        refine hnone id x.sig x.ptr ptr ⟨0, ?_, fun e he => by omega⟩
        rw [named_zero]
        simp [hitsAt, hf, hx]
    refine ⟨fun _ => .inr ⟨hfilter, hnone⟩, fun _ => ?_⟩
    refine own_of_declared (p := ptr) ?_ ?_ (fun h => h)
    · simpa [written] using hf
    · simp only [written, if_true, List.filter_cons, decide_true]
      rw [hfilter]

/-- C86, refuted.  If a struct that is embedded has the method with the wanted signature, and it is promoted, nothing is
written, and calls run the method of the embedded struct. -/
theorem C86_promoted (strict body : Bool) (n id o : Nat) (ptr : Bool) (m : Methods.Name)
    (hn : Enough D m n [⟨id, ptr⟩]) (h : Runs D id ptr m o) :
    generate D strict n id m ptr body = some D ∧ (o ≠ id → ¬ Runs D id ptr m id) := by
  have hp := (present_iff n id o ptr m hn).mpr h
  refine ⟨by simp [generate, hp, act], ?_⟩
  rintro hne ⟨p, ind, h1, _⟩
  obtain ⟨p', ind', h2, _⟩ := h
  have := denotes_unique h1 h2
  simp only [Hit.method.injEq] at this
  exact hne this.1.symm

/-- C86, refuted.  A method with another signature, or with a pointer receiver where a value is needed, is not replaced,
and unless the mode is strict nothing is said: the run goes on as if all was well, and the struct lacks the method. -/
theorem C86_wrong_is_silent (body : Bool) (n id o : Nat) (ptr : Bool) (m : Methods.Name) (sig p ind : Bool)
    (hn : Enough D m n [⟨id, ptr⟩]) (h : Denotes D m [⟨id, ptr⟩] (.method o sig p ind))
    (hw : sig = false ∨ (p = true ∧ ind = false)) :
    generate D false n id m ptr body = some D ∧ generate D true n id m ptr body = none ∧ ∀ x, ¬ Runs D id ptr m x := by
  have ha : missingMethod D n id ptr m = .wrongType := by
    unfold missingMethod
    rw [(lookup_denotes m _ n _ hn).mpr h]
    simp only
    rw [if_pos]
    rcases hw with h | ⟨h1, h2⟩
    · simp [h]
    · simp [h1, h2]
  refine ⟨by simp [generate, ha, act], by simp [generate, ha, act], ?_⟩
  rintro x ⟨p', ind', h1, h2⟩
  have := denotes_unique h h1
  simp only [Hit.method.injEq] at this
  obtain ⟨_, h3, h4, h5⟩ := this
  rcases hw with h | ⟨h6, h7⟩
  · rw [h] at h3; cases h3
  · have := h2 (h4 ▸ h6); rw [← h5, h7] at this; cases this

/-- C86 for structs that embed nothing: every method the struct does not declare is written and is its own. -/
theorem C86_plain (strict : Bool) (id : Nat) (m : Methods.Name) (ptr : Bool) (he : (D id).embeds = [])
    (hf : m ∉ (D id).fields) (hm : (D id).methods.filter (fun x => x.name = m) = []) (n : Nat) (hn0 : 0 < n) :
    ∃ D', generate D strict n id m ptr true = some D' ∧ Runs D' id ptr m id := by
  have hl : lookup D m n [⟨id, ptr⟩] = none := by
    cases n with
    | zero => omega
    | succ n =>
      have h0 : ([⟨id, ptr⟩] : List Place).flatMap (hitsAt D m) = [] := by simp [hitsAt, hf, hm]
      have h1 : ([⟨id, ptr⟩] : List Place).flatMap (below D) = [] := by simp [below, he]
      have h2 : ∀ k, lookup D m k [] = none := by
        intro k
        induction k with
        | zero => rfl
        | succ k ih => simpa [lookup] using ih
      simp only [lookup, h0, h1, h2]
  have ha : missingMethod D n id ptr m = .missing := by simp [missingMethod, hl]
  refine ⟨written D id m ptr, by simp [generate, ha, act], ?_⟩
  refine own_of_declared (p := ptr) ?_ ?_ (fun h => h)
  · simpa [written] using hf
  · simp only [written, if_true, List.filter_cons, decide_true]
    rw [hm]

/-- Whatever is embedded, also in a cycle, some number of levels is enough. -/
theorem C86_enough (m : Methods.Name) (ps : List Place) : ∃ n, Enough D m n ps := by
  by_cases h : ∃ d, named D m d ps ≠ []
  · obtain ⟨d, hd⟩ := h
    refine ⟨d + 1, fun e he hall => ?_⟩
    exact absurd (hall d (by omega)) hd
  · refine ⟨0, fun d _ _ => ?_⟩
    cases hx : named D m d ps with
    | nil => rfl
    | cons x l => exact absurd ⟨d, by simp [hx]⟩ h

private theorem unused_missing {id : Nat} {ptr : Bool} {m : Methods.Name} (h : Unused D id ptr m) (n : Nat) :
    missingMethod D n id ptr m = .missing := by
  have : lookup D m n [⟨id, ptr⟩] = none := by
    cases hl : lookup D m n [⟨id, ptr⟩] with
    | none => rfl
    | some x =>
      obtain ⟨d, _, h2, _⟩ := (lookup_iff m x n _).mp hl
      rw [h d] at h2; cases h2
  simp [missingMethod, this]

private theorem level_written (id : Nat) (m : Methods.Name) (ptr : Bool) : ∀ (d : Nat) (ps : List Place),
    level (written D id m ptr) d ps = level D d ps := by
  intro d
  induction d with
  | zero => intro ps; rfl
  | succ d ih =>
    intro ps
    have hb : below (written D id m ptr) = below D := by
      funext p
      unfold below written
      split <;> rfl
    simp only [level]
    rw [ih, embedded_eq, embedded_eq, hb]

private theorem hitsAt_written {id : Nat} {m m' : Methods.Name} {ptr : Bool} (hne : m' ≠ m) (p : Place) :
    hitsAt (written D id m' ptr) m p = hitsAt D m p := by
  unfold hitsAt written
  by_cases h : p.id = id
  · simp only [h, if_true, List.filter_cons]
    simp [hne]
  · simp only [h, if_false]

private theorem named_written {id : Nat} {m m' : Methods.Name} {ptr : Bool} (hne : m' ≠ m) (d : Nat) (ps : List Place) :
    named (written D id m' ptr) m d ps = named D m d ps := by
  unfold named
  rw [level_written, declared_eq, declared_eq]
  congr 1
  funext p
  exact hitsAt_written hne p

private theorem generate_other {D' : Nat → Struct} {strict : Bool} {n id : Nat} {m m' : Methods.Name} {ptr body : Bool}
    (hne : body = true → m' ≠ m) (hg : generate D strict n id m' ptr body = some D') (d : Nat) (ps : List Place) :
    named D' m d ps = named D m d ps := by
  unfold generate at hg
  cases ha : act strict (missingMethod D n id ptr m') with
  | write =>
    cases body with
    | true =>
      simp only [ha, if_true, Option.some.injEq] at hg
      rw [← hg]; exact named_written (hne rfl) d ps
    | false => simp only [ha, Bool.false_eq_true, if_false, Option.some.injEq] at hg; rw [hg]
  | log => simp only [ha, Option.some.injEq] at hg; rw [hg]
  | nothing => simp only [ha, Option.some.injEq] at hg; rw [hg]
  | stop => simp [ha] at hg

private theorem runs_congr {D' : Nat → Struct} {m : Methods.Name} {id o : Nat} {ptr : Bool}
    (h : ∀ d ps, named D' m d ps = named D m d ps) : Runs D' id ptr m o ↔ Runs D id ptr m o := by
  simp only [Runs, Denotes, h]

private theorem all_other {strict : Bool} {n id : Nat} {m : Methods.Name} : ∀ (ms : List (Methods.Name × Bool × Bool))
    (D D' : Nat → Struct), (∀ x ∈ ms, x.2.2 = true → x.1 ≠ m) → generateAll strict n id ms D = some D' →
      ∀ d ps, named D' m d ps = named D m d ps := by
  intro ms
  induction ms with
  | nil => intro D D' _ h d ps; simp only [generateAll, Option.some.injEq] at h; rw [h]
  | cons x rest ih =>
    obtain ⟨m', ptr, body⟩ := x
    intro D D' hm h d ps
    simp only [generateAll, Option.bind_eq_some_iff] at h
    obtain ⟨E, h1, h2⟩ := h
    rw [ih E D' (fun y hy => hm y (by simp [hy])) h2,
      generate_other (fun hb => hm (m', ptr, body) (by simp) hb) h1]

private theorem own_all {strict : Bool} {n id : Nat} : ∀ (ms : List (Methods.Name × Bool × Bool)) (D : Nat → Struct),
    (ms.map Prod.fst).Nodup → (∀ x ∈ ms, Unused D id x.2.1 x.1) →
      ∃ D', generateAll strict n id ms D = some D' ∧ ∀ x ∈ ms, x.2.2 = true → Runs D' id x.2.1 x.1 id := by
  intro ms
  induction ms with
  | nil => intro D _ _; exact ⟨D, rfl, by simp⟩
  | cons x rest ih =>
    obtain ⟨m, ptr, body⟩ := x
    intro D hnd hu
    simp only [List.map_cons, List.nodup_cons] at hnd
    have hm : Unused D id ptr m := hu (m, ptr, body) (by simp)
    have hne : ∀ y ∈ rest, m ≠ y.1 := by
      rintro y hy rfl
      exact hnd.1 (List.mem_map.mpr ⟨y, hy, rfl⟩)
    have hg : generate D strict n id m ptr body = some (if body then written D id m ptr else D) := by
      cases body <;> simp [generate, unused_missing hm, act]
    generalize hE : (if body = true then written D id m ptr else D) = E at hg
    have hrest : ∀ y ∈ rest, Unused E id y.2.1 y.1 := by
      intro y hy d
      rw [generate_other (fun _ => hne y hy) hg]
      exact hu y (by simp [hy]) d
    obtain ⟨D', h1, h2⟩ := ih E hnd.2 hrest
    refine ⟨D', by simp [generateAll, hg, h1], ?_⟩
    intro y hy hb
    rcases List.mem_cons.mp hy with rfl | hy
    · simp only at hb
      subst hb
      simp only [if_true] at hE
      subst hE
      rw [runs_congr (all_other rest _ _ (fun y hy _ h => hne y hy h.symm) h1)]
      have h0 : hitsAt D m ⟨id, ptr⟩ = [] := by rw [← named_zero]; exact hm 0
      simp only [hitsAt, List.append_eq_nil_iff, List.map_eq_nil_iff] at h0
      refine own_of_declared (p := ptr) ?_ ?_ (fun h => h)
      · intro hmem
        simp only [written, if_true] at hmem
        simp [hmem] at h0
      · simp only [written, if_true, List.filter_cons, decide_true]
        rw [h0.2]
    · exact h2 y hy hb

private theorem wanted_nodup (o : Opts) : ((wanted o).map Prod.fst).Nodup := by
  obtain ⟨a, b, c⟩ := o
  cases a <;> cases b <;> cases c <;> decide +kernel

private theorem wanted_iff (o : Opts) (m : Methods.Name) (ptr : Bool) :
    ((∃ b, (m, ptr, b) ∈ wanted o) ↔ Asked o m ptr) ∧ ((m, ptr, true) ∈ wanted o ↔ Required o m ptr) := by
  obtain ⟨r, s, i⟩ := o
  constructor
  · cases r <;> cases ptr <;> simp [wanted, Asked, exists_or]
  · constructor
    · intro h
      cases r <;> cases s <;> cases i <;> cases ptr <;> simp [wanted] at h <;>
        (first | subst h | (rcases h with rfl | rfl) | (rcases h with rfl | rfl | rfl) |
          (rcases h with rfl | rfl | rfl | rfl)) <;> simp [Required, Asked]
    · rintro ⟨⟨rfl, rfl | rfl | rfl | ⟨h, rfl⟩⟩ | ⟨rfl, rfl⟩, h1, h2⟩
      · simp [wanted]
      · have := h1 rfl; simp only at this; subst this; simp [wanted]
      · simp [wanted]
      · have := h2 rfl; simp only at this h; subst this; subst h; simp [wanted]
      · simp [wanted]

/-- C86 for all methods: if nothing the struct has or embeds carries one of the names, all methods that are needed are
written, and calls run those of the struct. -/
theorem C86_all_own_partial (strict : Bool) (o : Opts) (n id : Nat)
    (h : ∀ m ptr, Asked o m ptr → Unused D id ptr m) :
    ∃ D', generateAll strict n id (wanted o) D = some D' ∧ ∀ m ptr, Required o m ptr → Runs D' id ptr m id := by
  obtain ⟨D', h1, h2⟩ := own_all (strict := strict) (n := n) (wanted o) D (wanted_nodup o)
    (fun x hx => h x.1 x.2.1 ((wanted_iff o x.1 x.2.1).1.mp ⟨x.2.2, hx⟩))
  exact ⟨D', h1, fun m ptr hr => h2 (m, ptr, true) ((wanted_iff o m ptr).2.mpr hr) rfl⟩

/-- Nothing else changes: names that are not needed denote what they denoted, for all structs.  In particular a read-only
struct gets no `Values`. -/
theorem C86_only_required (strict : Bool) (o : Opts) (n id : Nat) (D' : Nat → Struct)
    (hg : generateAll strict n id (wanted o) D = some D') (m : Methods.Name)
    (hm : ∀ ptr, ¬ Required o m ptr) (ps : List Place) (h : Hit) : Denotes D' m ps h ↔ Denotes D m ps h := by
  have : ∀ x ∈ wanted o, x.2.2 = true → x.1 ≠ m := by
    rintro ⟨m', ptr, b⟩ hx hb rfl
    simp only at hb
    subst hb
    exact hm ptr ((wanted_iff o m' ptr).2.mp hx)
  simp only [Denotes, all_other (wanted o) D D' this hg]

private theorem keep_all {strict : Bool} {n id o : Nat} : ∀ (ms : List (Methods.Name × Bool × Bool)),
    (∀ x ∈ ms, Enough D x.1 n [⟨id, x.2.1⟩] ∧ Runs D id x.2.1 x.1 o) → generateAll strict n id ms D = some D := by
  intro ms
  induction ms with
  | nil => intro _; rfl
  | cons x rest ih =>
    obtain ⟨m, ptr, body⟩ := x
    intro h
    obtain ⟨h1, h2⟩ := h (m, ptr, body) (by simp)
    simp only [generateAll, (C86_promoted strict body n id o ptr m h1 h2).1, Option.bind_some]
    exact ih fun y hy => h y (by simp [hy])

/-- C86, refuted for a struct that embeds a model: nothing is written, in strict mode too, and the table name, the
columns, the values and the destinations are all those of the embedded model. -/
theorem C86_embedded_model (strict : Bool) (o : Opts) (n id base : Nat) (hne : base ≠ id)
    (h : ∀ m ptr, Asked o m ptr → Enough D m n [⟨id, ptr⟩] ∧ Runs D id ptr m base) :
    generateAll strict n id (wanted o) D = some D ∧
      ∀ m ptr, Asked o m ptr → Runs D id ptr m base ∧ ¬ Runs D id ptr m id :=
  ⟨keep_all _ fun x hx => h x.1 x.2.1 ((wanted_iff o x.1 x.2.1).1.mp ⟨x.2.2, hx⟩), fun m ptr hr =>
    ⟨(h m ptr hr).2, (C86_promoted strict true n id base ptr m (h m ptr hr).1 (h m ptr hr).2).2 hne⟩⟩

private theorem stop_all {n id : Nat} : ∀ (ms : List (Methods.Name × Bool × Bool)) (D : Nat → Struct),
    (ms.map Prod.fst).Nodup → ∀ x ∈ ms, ∀ o sig p ind, Enough D x.1 n [⟨id, x.2.1⟩] →
      Denotes D x.1 [⟨id, x.2.1⟩] (.method o sig p ind) → (sig = false ∨ (p = true ∧ ind = false)) →
        generateAll true n id ms D = none := by
  intro ms
  induction ms with
  | nil => intro D _ x hx; cases hx
  | cons y rest ih =>
    obtain ⟨m, ptr, body⟩ := y
    intro D hnd x hx o sig p ind hn hd hw
    simp only [List.map_cons, List.nodup_cons] at hnd
    rcases List.mem_cons.mp hx with rfl | hx'
    · simp only [generateAll, (C86_wrong_is_silent body n id o ptr m sig p ind hn hd hw).2.1, Option.bind_none]
    · simp only [generateAll]
      cases hg : generate D true n id m ptr body with
      | none => rfl
      | some E =>
        have hne : m ≠ x.1 := by
          rintro rfl
          exact hnd.1 (List.mem_map.mpr ⟨x, hx', rfl⟩)
        have hs := fun d ps => generate_other (fun _ => hne) hg d ps
        refine ih E hnd.2 x hx' o sig p ind ?_ ?_ hw
        · simpa only [Enough, hs] using hn
        · simpa only [Denotes, hs] using hd

/-- C86 in strict mode: a method of another signature, or with a pointer receiver where a value is needed, stops the
run, whichever of the methods it is. -/
theorem C86_strict_stops (opts : Opts) (n id o : Nat) (m : Methods.Name) (ptr sig p ind : Bool)
    (ha : Asked opts m ptr) (hn : Enough D m n [⟨id, ptr⟩])
    (hd : Denotes D m [⟨id, ptr⟩] (.method o sig p ind)) (hw : sig = false ∨ (p = true ∧ ind = false)) :
    generateAll true n id (wanted opts) D = none := by
  obtain ⟨b, hb⟩ := (wanted_iff opts m ptr).1.mpr ha
  exact stop_all (wanted opts) D (wanted_nodup opts) (m, ptr, b) hb o sig p ind hn hd hw

/-! `Base` (0) is a model with hand-written methods; `User` (1) embeds it; `Plain` (2) embeds a pointer to a struct (3)
without methods; `Bad` (4) has `TableName` with a pointer receiver; `Both` (5) embeds two models; `Loop` (6) embeds a
pointer to itself. -/

private def columns : Methods.Name := "Columns".toList
private def tableName : Methods.Name := "TableName".toList

private def model : Struct :=
  ⟨[], [⟨tableName, true, false⟩, ⟨"SQLColumns".toList, true, false⟩, ⟨columns, true, false⟩,
    ⟨"Values".toList, true, false⟩, ⟨"Addrs".toList, true, true⟩], []⟩

private def ex : Nat → Struct
  | 0 => model
  | 1 => ⟨["Base".toList, "Age".toList], [], [(0, false)]⟩
  | 2 => ⟨["Part".toList], [], [(3, true)]⟩
  | 4 => ⟨[], [⟨tableName, true, true⟩], []⟩
  | 5 => ⟨["Base".toList, "Other".toList], [], [(0, false), (7, false)]⟩
  | 6 => ⟨["Loop".toList], [], [(6, true)]⟩
  | 7 => model
  | _ => ⟨[], [], []⟩

private theorem ex_below (id : Nat) (hid : id ≤ 5) (ptr : Bool) (m : Methods.Name) (d : Nat) (hd : 2 ≤ d) :
    named ex m d [⟨id, ptr⟩] = [] := by
  have nil : ∀ d, level ex d [] = [] := by
    intro d; induction d with
    | zero => rfl
    | succ d ih => exact ih
  obtain ⟨k, rfl⟩ : ∃ k, d = k + 2 := ⟨d - 2, by omega⟩
  have : (([⟨id, ptr⟩] : List Place).flatMap (embedded ex)).flatMap (embedded ex) = [] := by
    have : id = 0 ∨ id = 1 ∨ id = 2 ∨ id = 3 ∨ id = 4 ∨ id = 5 := by omega
    rcases this with rfl | rfl | rfl | rfl | rfl | rfl <;> cases ptr <;> decide
  simp only [named, level, this, nil, List.flatMap_nil]

private theorem ex_deep (id : Nat) (hid : id ≤ 5) (ptr : Bool) (m : Methods.Name) : Enough ex m 2 [⟨id, ptr⟩] :=
  fun d hd _ => ex_below id hid ptr m d hd

-- embedding a model: all five methods are promoted
example : ∀ m ptr, Asked ⟨false, true, true⟩ m ptr → Enough ex m 2 [⟨1, ptr⟩] ∧ Runs ex 1 ptr m 0 := by
  intro m ptr hr
  refine ⟨ex_deep 1 (by omega) ptr m, (present_iff 2 1 0 ptr m (ex_deep 1 (by omega) ptr m)).mp ?_⟩
  rcases hr with ⟨rfl, rfl | rfl | rfl | ⟨_, rfl⟩⟩ | ⟨rfl, rfl⟩ <;> decide +kernel
-- no methods anywhere: all five are written
example : ∀ m ptr, Asked ⟨false, true, true⟩ m ptr → Unused ex 2 ptr m := by
  intro m ptr hr d
  match d with
  | 0 => rcases hr with ⟨rfl, rfl | rfl | rfl | ⟨_, rfl⟩⟩ | ⟨rfl, rfl⟩ <;> decide +kernel
  | 1 => rcases hr with ⟨rfl, rfl | rfl | rfl | ⟨_, rfl⟩⟩ | ⟨rfl, rfl⟩ <;> decide +kernel
  | d + 2 => exact ex_below 2 (by omega) ptr m (d + 2) (by omega)
-- a pointer receiver where a value is needed
example : missingMethod ex 2 4 false tableName = .wrongType := by decide +kernel
example : missingMethod ex 2 4 true tableName = .present 4 := by decide +kernel
-- two models: neither is promoted
example : missingMethod ex 2 5 false columns = .missing := by decide +kernel
-- a cycle
example : missingMethod ex 9 6 false columns = .missing := by decide +kernel

end Verif.Props

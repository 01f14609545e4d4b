import Verif.Lemmas.Store
import Verif.Spec.Wrap

/-!
# Lemmas about reading statements with functions
-/

namespace Verif.Wrap

open Verif Verif.Gen Verif.Spec Verif.Spec.Gen Verif.Spec.Sql Verif.Spec.Store Verif.Sql Verif.Spec.Wrap

variable {V : Type}

/-! ## Tokens of templates -/

/-- The token for the hole. -/
def put (k : Tok V) : Tok Unit → Tok V
  | .word w => .word w
  | .ident s => .ident s
  | .sym c => .sym c
  | .val _ => k

theorem step_ch (q : Char) (k : Tok V) (s : St) (c : Char) :
    step q s (.ch c : BSym V) = (step q s (.ch c : BSym Unit)).map fun x => (x.1.map (put k), x.2) := by
  have hs : ∀ t : List (Tok Unit), next (V := V) q (t.map (put k)) c = ((next q t c).1.map (put k), (next q t c).2) := by
    intro t
    simp only [next, start]
    split
    · simp
    · split
      · simp
      · split <;> simp [put]
  cases s with
  | idle => exact congrArg some (hs [])
  | word w =>
    simp only [step]
    split
    · rfl
    · exact congrArg some (hs [.word w])
  | quoted w => rfl
  | closed w =>
    simp only [step]
    split
    · rfl
    · simp only [Spec.Sql.flush]
      split
      · rfl
      · exact congrArg some (hs [.ident w])

theorem run_ch (q : Char) (k : Tok V) (s : St) (l : List Char) :
    run q s (l.map .ch : List (BSym V)) = (run q s (l.map .ch : List (BSym Unit))).map fun x => (x.1.map (put k), x.2) := by
  induction l generalizing s with
  | nil => rfl
  | cons c l ih =>
    simp only [List.map_cons, run, step_ch q k s c]
    cases step q s (.ch c : BSym Unit) with
    | none => rfl
    | some x =>
      simp only [Option.map_some, ih]
      cases run q x.2 (l.map .ch : List (BSym Unit)) <;> simp

theorem flush_put (k : Tok V) (s : St) : flush s = (flush s : Option (List (Tok Unit))).map (List.map (put k)) := by
  cases s with
  | idle => rfl
  | word w => rfl
  | quoted w => rfl
  | closed w => simp only [Spec.Sql.flush]; split <;> rfl

/-- Between tokens, or at the end of one: a character that ends tokens leads to the same. -/
theorem run_delim {q c : Char} (hc : Delim q c) {s : St} {l : List (Tok V)} (h : flush s = some l) (r : List (BSym V)) :
    run q s (.ch c :: r) = (run q .idle (.ch c :: r)).map fun x => (l ++ x.1, x.2) := by
  have h1 := step_delim hc h
  have h2 : step q .idle (.ch c : BSym V) = some (next q [] c) := step_delim hc rfl
  have h3 : (next (V := V) q l c).2 = (next (V := V) q [] c).2 := rfl
  simp only [run, h1, h2, h3]
  cases run q (next (V := V) q [] c).2 r <;> simp [next]

theorem fill_cons (p : Piece) (t : Tmpl) (x : List (BSym V)) : fill (p :: t) x = fill [p] x ++ fill t x := by
  simp [fill]

/-- What is put in a hole is one token. -/
theorem run_fill {q : Char} {a : List (BSym V)} {k : Tok V} (ha : Lexes q a [k]) : ∀ (t : Tmpl), ends q t = true → ∀ (s s' : St)
    (ts : List (Tok Unit)) (l : List (Tok Unit)), run q s (fill t [.val ()]) = some (ts, s') → flush s' = some l →
    ∃ us u lu, run q s (fill t a) = some (us, u) ∧ flush u = some lu ∧ us ++ lu = (ts ++ l).map (put k) := by
  intro t
  induction t with
  | nil =>
    intro _ s s' ts l h hl
    simp only [fill, List.flatMap_nil, run, Option.some.injEq, Prod.mk.injEq] at h
    obtain ⟨rfl, rfl⟩ := h
    exact ⟨[], s, l.map (put k), rfl, by rw [flush_put k, hl]; rfl, by simp⟩
  | cons p t ih =>
    intro he s s' ts l h hl
    rw [fill_cons, run_append] at h
    rw [fill_cons, run_append]
    cases p with
    | bad =>
      have e : ∀ W : Type, ∀ y : List (BSym W), fill [.bad] y = [] := fun W y => by simp [fill]
      rw [e] at h ⊢
      obtain ⟨us, hu⟩ := ih (by simpa [ends] using he) s s' ts l (by simpa [run] using h) hl
      exact ⟨us, by simpa [run] using hu⟩
    | lit x =>
      have he' : ends q t = true := by simpa [ends] using he
      have e : ∀ W : Type, ∀ y : List (BSym W), fill [.lit x] y = x.toList.map .ch := fun W y => by simp [fill, bs]
      rw [e] at h ⊢
      rw [run_ch q k]
      cases hr : run q s (x.toList.map .ch : List (BSym Unit)) with
      | none => simp [hr] at h
      | some y =>
        simp only [hr, Option.bind_some] at h
        cases hr2 : run q y.2 (fill t [.val ()] : List (BSym Unit)) with
        | none => simp [hr2] at h
        | some z =>
          simp only [hr2, Option.map_some, Option.some.injEq, Prod.mk.injEq] at h
          obtain ⟨rfl, rfl⟩ := h
          obtain ⟨us, u, lu, h1, h2, h3⟩ := ih he' y.2 z.2 z.1 l hr2 hl
          refine ⟨y.1.map (put k) ++ us, u, lu, by simp [h1], h2, ?_⟩
          rw [List.append_assoc, h3]
          simp
    | hole =>
      have e : ∀ W : Type, ∀ y : List (BSym W), fill [.hole] y = y := fun W y => by simp [fill]
      rw [e] at h ⊢
      obtain ⟨t0, v, lv, h1, h2, h3⟩ := ha
      cases s with
      | word w => simp [run, step] at h
      | quoted w => simp [run, step] at h
      | closed w => simp [run, step] at h
      | idle =>
        simp only [run, step, Option.map_some, Option.bind_some, List.append_nil] at h
        rw [h1, Option.bind_some]
        cases hr : run q .idle (fill t [.val ()] : List (BSym Unit)) with
        | none => simp [hr] at h
        | some z =>
          simp only [hr, Option.map_some, Option.some.injEq, Prod.mk.injEq] at h
          obtain ⟨rfl, rfl⟩ := h
          match t, he with
          | [], _ =>
            simp only [fill, List.flatMap_nil, run, Option.some.injEq] at hr
            subst hr
            have hl' : l = [] := by simpa [Spec.Sql.flush] using hl.symm
            subst hl'
            exact ⟨t0, v, lv, by simp [fill, run], h2, by simpa [put] using h3.symm⟩
          | .lit x :: t', he =>
            have hx : ∃ c r, x.toList = c :: r ∧ Delim q c := by
              simp only [ends, Bool.and_eq_true] at he
              cases hc : x.toList with
              | nil => simp [hc] at he
              | cons c r =>
                have := he.1
                simp only [hc, Bool.and_eq_true, bne_iff_ne, ne_eq, Bool.not_eq_true'] at this
                exact ⟨c, r, rfl, this.1, this.2⟩
            obtain ⟨c, r, hx, hd⟩ := hx
            have he' : ends q (.lit x :: t') = true := by
              simp only [ends, Bool.and_eq_true] at he ⊢
              exact he.2
            obtain ⟨us, u, lu, g1, g2, g3⟩ := ih he' .idle z.2 z.1 l hr hl
            have hf : (fill (.lit x :: t') a : List (BSym V)) = .ch c :: (r.map .ch ++ fill t' a) := by
              rw [fill_cons]; simp [fill, bs, hx]
            rw [hf] at g1 ⊢
            rw [run_delim hd h2, g1]
            refine ⟨t0 ++ (lv ++ us), u, lu, by simp, g2, ?_⟩
            rw [List.append_assoc, List.append_assoc, g3, ← List.append_assoc, ← h3]
            simp [put]

/-! ## Expressions -/

theorem many_mono {α : Type} {p p' : List (Tok V) → Option (α × List (Tok V))} (h : ∀ ts x, p ts = some x → p' ts = some x) :
    ∀ (n m : Nat), n ≤ m → ∀ ts x, many p n ts = some x → many p' m ts = some x := by
  intro n
  induction n with
  | zero => intro m _ ts x hx; simp [many] at hx
  | succ n ih =>
    intro m hm ts x hx
    obtain ⟨m, rfl⟩ : ∃ m', m = m' + 1 := ⟨m - 1, by omega⟩
    simp only [many] at hx ⊢
    cases hp : p ts with
    | none => simp [hp] at hx
    | some y =>
      simp only [hp, h ts y hp] at hx ⊢
      cases hs : sym ',' y.2 with
      | none => simpa [hs] using hx
      | some r =>
        simp only [hs] at hx ⊢
        cases hr : many p n r with
        | none => simp [hr] at hx
        | some z => rw [ih m (by omega) r z hr]; simpa [hr] using hx

theorem expr_mono (D : Dialect) : ∀ (n m : Nat), n ≤ m → ∀ (ts : List (Tok V)) x, expr D n ts = some x → expr D m ts = some x := by
  intro n
  induction n with
  | zero => intro m _ ts x hx; simp [expr] at hx
  | succ n ih =>
    intro m hm ts x hx
    obtain ⟨m, rfl⟩ : ∃ m', m = m' + 1 := ⟨m - 1, by omega⟩
    simp only [expr] at hx ⊢
    cases hc : call? ts with
    | none => simpa [hc] using hx
    | some y =>
      simp only [hc] at hx ⊢
      cases hr : many (expr D n) n y.2 with
      | none => simp [hr] at hx
      | some z => rw [many_mono (ih m (by omega)) n m (by omega) _ _ hr]; simpa [hr] using hx

/-- A token that stands for an expression. -/
structure Atom (D : Dialect) (k : Tok V) (x : Ex V) : Prop where
  atom : ∀ r, atom D (k :: r) = some (x, r)

theorem atom_val (D : Dialect) (v : V) : Atom D (.val v) (.val v) := ⟨fun _ => rfl⟩

theorem atom_name {D : Dialect} {k : Tok V} {n : Name} (h : ∀ r, name D (k :: r) = some (n, r)) : Atom D k (.name n) := by
  constructor
  intro r
  have hr := h r
  cases k with
  | word w =>
    have hd : startsDigit w = false := by
      unfold startsDigit
      simp only [name] at hr
      by_contra hc
      simp at hr
      exact hc hr.1.2
    simp [Spec.Wrap.atom, hd, hr]
  | ident s => simp [Spec.Wrap.atom, hr]
  | sym c => simp [name] at hr
  | val v => simp [name] at hr

theorem call_put {k : Tok V} {D : Dialect} {x : Ex V} (hk : Atom D k x) {ts : List (Tok Unit)} {rest : List (Tok V)}
    {e : Ex Unit} {r : List (Tok Unit)} (hc : call? ts = none) (ha : Spec.Wrap.atom D ts = some (e, r)) (ho : opens r = false)
    (hr : r = [] → opens rest = false) :
    call? (ts.map (put k) ++ rest) = none ∧ Spec.Wrap.atom D (ts.map (put k) ++ rest) = some (Ex.subst x e, r.map (put k) ++ rest) ∧
      opens (r.map (put k) ++ rest) = false := by
  have hopen : ∀ r' : List (Tok Unit), r' = r → opens (r'.map (put k) ++ rest) = false := by
    rintro r' rfl
    cases r' with
    | nil => simpa using hr rfl
    | cons y r' =>
      cases y with
      | sym c => simpa [opens, put] using ho
      | word w => rfl
      | ident s => rfl
      | val v =>
        simp only [List.map_cons, put, List.cons_append]
        cases k with
        | sym c => have := hk.atom []; simp [Spec.Wrap.atom, name] at this
        | _ => rfl
  have hcall : ∀ (k' : Tok V) (l : List (Tok V)), opens l = false → call? (k' :: l) = none := by
    intro k' l hl
    cases k' with
    | word w =>
      cases l with
      | nil => rfl
      | cons y l =>
        cases y with
        | sym c =>
          have hc : c ≠ '(' := by simpa [opens] using hl
          simp [call?, hc]
        | _ => rfl
    | _ => rfl
  cases ts with
  | nil => simp [Spec.Wrap.atom, name] at ha
  | cons y ts =>
    cases y with
    | val v =>
      simp only [Spec.Wrap.atom, Option.some.injEq, Prod.mk.injEq] at ha
      obtain ⟨rfl, rfl⟩ := ha
      have h1 := hopen ts rfl
      exact ⟨hcall k _ h1, hk.atom _, h1⟩
    | sym c => simp [Spec.Wrap.atom, name] at ha
    | ident s =>
      simp only [Spec.Wrap.atom, name, Option.map_some, Option.some.injEq, Prod.mk.injEq] at ha
      obtain ⟨rfl, rfl⟩ := ha
      have h1 := hopen ts rfl
      exact ⟨hcall _ _ h1, rfl, h1⟩
    | word w =>
      simp only [Spec.Wrap.atom] at ha
      have key : r = ts ∧ ∀ l : List (Tok V), Spec.Wrap.atom D (.word w :: l) = some (Ex.subst x e, l) := by
        split at ha
        · rename_i h1
          split at ha
          · rename_i h2
            simp only [Option.some.injEq, Prod.mk.injEq] at ha
            obtain ⟨rfl, rfl⟩ := ha
            exact ⟨rfl, fun l => by simp [Spec.Wrap.atom, h1, h2, Ex.subst]⟩
          · simp at ha
        · rename_i h1
          simp only [name] at ha
          split at ha
          · simp at ha
          · rename_i h2
            simp only [Option.map_some, Option.some.injEq, Prod.mk.injEq] at ha
            obtain ⟨rfl, rfl⟩ := ha
            exact ⟨rfl, fun l => by simp [Spec.Wrap.atom, h1, name, h2, Ex.subst]⟩
      obtain ⟨rfl, h2⟩ := key
      have h1 := hopen r rfl
      exact ⟨hcall _ _ h1, h2 _, h1⟩

theorem sym_put (k : Tok V) {c : Char} {ts r : List (Tok Unit)} (h : sym c ts = some r) (rest : List (Tok V)) :
    sym c (ts.map (put k) ++ rest) = some (r.map (put k) ++ rest) := by
  cases ts with
  | nil => simp [sym] at h
  | cons y ts =>
    cases y with
    | sym d =>
      simp only [sym] at h
      split at h
      · rename_i hd
        simp only [Option.some.injEq] at h
        subst h
        simp [sym, put, hd]
      · simp at h
    | _ => simp [sym] at h

theorem substs_append (x : Ex V) (as : List (Ex Unit)) : Ex.substs x as = as.map (Ex.subst x) := by
  induction as with
  | nil => rfl
  | cons a as ih => simp [Ex.substs, ih]

theorem expr_put {D : Dialect} {k : Tok V} {x : Ex V} (hk : Atom D k x) : ∀ (n : Nat) (ts : List (Tok Unit)) (e : Ex Unit)
    (r : List (Tok Unit)), expr D n ts = some (e, r) → ∀ rest : List (Tok V), (r = [] → opens rest = false) →
    expr D n (ts.map (put k) ++ rest) = some (Ex.subst x e, r.map (put k) ++ rest) := by
  intro n
  induction n with
  | zero => intro ts e r h; simp [expr] at h
  | succ n ih =>
    intro ts e r h rest hr
    simp only [expr] at h ⊢
    cases hc : call? ts with
    | none =>
      simp only [hc] at h
      cases ha : Spec.Wrap.atom D ts with
      | none => simp [ha] at h
      | some y =>
        obtain ⟨e', r'⟩ := y
        simp only [ha] at h
        split at h
        · simp at h
        · rename_i ho
          simp only [Option.some.injEq, Prod.mk.injEq] at h
          obtain ⟨rfl, rfl⟩ := h
          obtain ⟨h1, h2, h3⟩ := call_put hk hc ha (by simpa using ho) hr
          simp [h1, h2, h3]
    | some y =>
      obtain ⟨f, l⟩ := y
      have hcall : call? (ts.map (put k) ++ rest) = some (f, l.map (put k) ++ rest) := by
        cases ts with
        | nil => simp [call?] at hc
        | cons a ts =>
          cases a with
          | word w =>
            cases ts with
            | nil => simp [call?] at hc
            | cons b ts =>
              cases b with
              | sym c =>
                simp only [call?] at hc
                split at hc
                · rename_i hw
                  simp only [Option.some.injEq, Prod.mk.injEq] at hc
                  obtain ⟨rfl, rfl⟩ := hc
                  simp [call?, put, hw]
                · simp at hc
              | _ => simp [call?] at hc
          | _ => simp [call?] at hc
      simp only [hc] at h
      simp only [hcall]
      have hmany : ∀ (m : Nat) (ts : List (Tok Unit)) as r, many (expr D n) m ts = some (as, r) → r ≠ [] →
          many (expr D n) m (ts.map (put k) ++ rest) = some (Ex.substs x as, r.map (put k) ++ rest) := by
        intro m
        induction m with
        | zero => intro ts as r h; simp [many] at h
        | succ m ihm =>
          intro ts as r h hne
          simp only [many] at h ⊢
          cases he : expr D n ts with
          | none => simp [he] at h
          | some y =>
            obtain ⟨a, r1⟩ := y
            simp only [he] at h
            cases hs : sym ',' r1 with
            | none =>
              simp only [hs, Option.some.injEq, Prod.mk.injEq] at h
              obtain ⟨rfl, rfl⟩ := h
              rw [ih ts a r1 he rest (fun e => absurd e hne)]
              have : sym ',' (r1.map (put k) ++ rest) = none := by
                cases r1 with
                | nil => exact absurd rfl hne
                | cons b r1 =>
                  cases b with
                  | sym c =>
                    have hcne : c ≠ ',' := by rintro rfl; simp [sym] at hs
                    simp [sym, put, hcne]
                  | val v =>
                    simp only [List.map_cons, List.cons_append, put]
                    cases k with
                    | sym c => have := hk.atom []; simp [Spec.Wrap.atom, name] at this
                    | _ => rfl
                  | _ => rfl
              simp [this, Ex.substs]
            | some r2 =>
              simp only [hs] at h
              cases hm : many (expr D n) m r2 with
              | none => simp [hm] at h
              | some z =>
                obtain ⟨as', r3⟩ := z
                simp only [hm, Option.map_some, Option.some.injEq, Prod.mk.injEq] at h
                obtain ⟨rfl, rfl⟩ := h
                have hr1 : r1 ≠ [] := by rintro rfl; simp [sym] at hs
                rw [ih ts a r1 he rest (fun e => absurd e hr1)]
                simp [sym_put k hs rest, ihm r2 as' r3 hm hne, Ex.substs]
      cases hm : many (expr D n) n l with
      | none => simp [hm] at h
      | some z =>
        obtain ⟨as, r1⟩ := z
        simp only [hm] at h
        cases hs : sym ')' r1 with
        | none => simp [hs] at h
        | some r2 =>
          simp only [hs, Option.map_some, Option.some.injEq, Prod.mk.injEq] at h
          obtain ⟨rfl, rfl⟩ := h
          have hr1 : r1 ≠ [] := by rintro rfl; simp [sym] at hs
          simp [hmany n l as r1 hm hr1, sym_put k hs rest, Ex.subst]

/-! ## Texts that are expressions -/

/-- The text `b` is read as the expression `x`. -/
def ItemTxt (D : Dialect) (b : List (BSym V)) (x : Ex V) : Prop :=
  ∃ ts, Lexes D.quote b ts ∧ ts ≠ [] ∧ ∀ r, opens r = false → item D (ts ++ r) = some (x, r)

theorem itemTxt_atom {D : Dialect} {a : List (BSym V)} {k : Tok V} {x : Ex V} (ha : Lexes D.quote a [k]) (hk : Atom D k x) :
    ItemTxt D a x := by
  refine ⟨[k], ha, by simp, fun r hr => ?_⟩
  have hc : call? (k :: r) = none := by
    cases k with
    | word w =>
      cases r with
      | nil => rfl
      | cons y l =>
        cases y with
        | sym c =>
          have hc : c ≠ '(' := by simpa [opens] using hr
          simp [call?, hc]
        | _ => rfl
    | _ => rfl
  simp [item, expr, hc, hk.atom, hr]

theorem itemTxt_means {D : Dialect} {t : Option Tmpl} {e : Ex Unit} (h : Means D t e) {a : List (BSym V)} {k : Tok V} {x : Ex V}
    (ha : Lexes D.quote a [k]) (hk : Atom D k x) : ItemTxt D (wrap t a) (Ex.subst x e) := by
  cases t with
  | none =>
    have : e = .val () := h
    subst this
    exact itemTxt_atom ha hk
  | some t =>
    have h : Says D t e := h
    have hs := h.shape
    unfold shape at hs
    split at hs
    · rename_i ts hl
      split at hs
      · rename_i e' hi
        simp only [Option.some.injEq] at hs
        subst hs
        rw [lex_run] at hl
        cases hr : run D.quote .idle (fill t [.val ()] : List (BSym Unit)) with
        | none => simp [hr] at hl
        | some y =>
          simp only [hr, Option.bind_some] at hl
          cases hf : (flush y.2 : Option (List (Tok Unit))) with
          | none => simp [hf] at hl
          | some l =>
            simp only [hf, Option.map_some, Option.some.injEq] at hl
            subst hl
            obtain ⟨us, u, lu, h1, h2, h3⟩ := run_fill ha t h.ends .idle y.2 y.1 l hr hf
            have hne : y.1 ++ l ≠ [] := by
              intro e0
              rw [e0] at hi
              simp [item, expr] at hi
            refine ⟨us ++ lu, ⟨us, u, lu, h1, h2, rfl⟩, ?_, fun r hr => ?_⟩
            · rw [h3]; simpa using hne
            · rw [h3]
              unfold item at hi ⊢
              have := expr_put hk _ _ _ _ hi r (fun _ => hr)
              refine expr_mono D _ _ ?_ _ _ this
              simp
      · simp at hs
    · simp at hs

theorem itemTxt_val {D : Dialect} {t : Option Tmpl} {e : Ex Unit} (h : Means D t e) (v : V) :
    ItemTxt D (wrap t [.val v]) (Ex.subst (.val v) e) := itemTxt_means h (idle_val _ v).lexes (atom_val D v)

theorem itemTxt_name {D : Dialect} {t : Option Tmpl} {e : Ex Unit} (h : Means D t e) {s : String} {n : Name} (hn : NameTxt D s n) :
    ItemTxt D (wrap t (bs s : List (BSym V))) (Ex.subst (.name n) e) :=
  itemTxt_means h (tokOf_lexes hn) (atom_name (tokOf_name hn))

/-! ## Parsing -/

theorem many_items {α β : Type} (p : List (Tok V) → Option (β × List (Tok V))) (tk : α → List (Tok V)) (val : α → β)
    (l : List α) (hp : ∀ a ∈ l, ∀ r, opens r = false → p (tk a ++ r) = some (val a, r)) (hl : l ≠ []) (r : List (Tok V))
    (ho : opens r = false) (hr : sym ',' r = none) (n : Nat) (hn : l.length ≤ n) :
    many p n (sep (l.map tk) ++ r) = some (l.map val, r) := by
  induction l generalizing n with
  | nil => exact absurd rfl hl
  | cons a l ih =>
    obtain ⟨m, rfl⟩ : ∃ m, n = m + 1 := ⟨n - 1, by simp at hn; omega⟩
    have ha := hp a (by simp)
    cases l with
    | nil => simp [sep, many, ha r ho, hr]
    | cons b l =>
      have i := ih (fun x hx => hp x (by simp [hx])) (by simp) m (by simpa using hn)
      simp only [List.map_cons] at i
      have ha := ha (.sym ',' :: (sep (tk b :: l.map tk) ++ r)) rfl
      simp [sep, many, ha, sym, i]

theorem many1_items {α β : Type} (p : List (Tok V) → Option (β × List (Tok V))) (tk : α → List (Tok V)) (val : α → β)
    (l : List α) (hp : ∀ a ∈ l, ∀ r, opens r = false → p (tk a ++ r) = some (val a, r)) (h0 : ∀ a ∈ l, tk a ≠ []) (hl : l ≠ [])
    (r : List (Tok V)) (ho : opens r = false) (hr : sym ',' r = none) : many1 p (sep (l.map tk) ++ r) = some (l.map val, r) := by
  unfold many1
  apply many_items p tk val l hp hl r ho hr
  have := sep_length tk l h0
  rw [List.length_append]; omega

section
variable {D : Dialect} (hq : IsQuote D.quote) {α : Type} {txt : α → String} {nm : α → Name} {l : List α}
  {b : α → List (BSym V)} {x : α → Ex V}
include hq

theorem items_read (h : ∀ c ∈ l, ItemTxt D (b c) (x c)) (hl : l ≠ []) : ∃ ts, Lexes D.quote (comma (l.map b)) ts ∧
    ∀ r, opens r = false → sym ',' r = none → many1 (item D) (ts ++ r) = some (l.map x, r) := by
  classical
  let tk : α → List (Tok V) := fun c => if h : ItemTxt D (b c) (x c) then h.choose else []
  have htk : ∀ c ∈ l, Lexes D.quote (b c) (tk c) ∧ tk c ≠ [] ∧ ∀ r, opens r = false → item D (tk c ++ r) = some (x c, r) := by
    intro c hc
    have : tk c = (h c hc).choose := dif_pos (h c hc)
    rw [this]
    exact (h c hc).choose_spec
  exact ⟨sep (l.map tk), lexes_comma hq b tk l (fun c hc => (htk c hc).1) hl, fun r ho hr =>
    many1_items _ tk x l (fun c hc => (htk c hc).2.2) (fun c hc => (htk c hc).2.1) hl r ho hr⟩

theorem equal_read {s : String} {n : Name} (hn : NameTxt D s n) {b : List (BSym V)} {x : Ex V} (hi : ItemTxt D b x) :
    ∃ ts, Lexes D.quote (bs s ++ bs " = " ++ b) ts ∧ ts ≠ [] ∧ sym '(' ts = none ∧ (∀ r, sym '(' (ts ++ r) = none) ∧
      ∀ r, opens r = false → Spec.Wrap.equal D (ts ++ r) = some ((n, x), r) := by
  obtain ⟨ts, h1, h2, h3⟩ := hi
  have hs : ∀ r, sym '(' (tokOf V D s n :: r) = none := by
    intro r
    have := tokOf_name hn r
    cases e : tokOf V D s n with
    | sym d => rw [e] at this; simp [name] at this
    | _ => rfl
  refine ⟨tokOf V D s n :: .sym '=' :: ts, ?_, by simp, hs _, fun r => hs _, fun r ho => ?_⟩
  · rw [List.append_assoc]
    exact (tokOf_lexes hn).lit (lit_eq hq) h1
  · simp [Spec.Wrap.equal, tokOf_name hn, sym, h3 r ho]

theorem sets_read (hc : Cols D txt nm l) (h : ∀ c ∈ l, ItemTxt D (b c) (x c)) :
    ∃ ts, Lexes D.quote (comma (l.map fun c => bs (txt c) ++ bs " = " ++ b c)) ts ∧
      ∀ r, opens r = false → sym ',' r = none → many1 (Spec.Wrap.equal D) (ts ++ r) = some (l.map fun c => (nm c, x c), r) := by
  classical
  have hex : ∀ c ∈ l, ∃ ts, Lexes D.quote (bs (txt c) ++ bs " = " ++ b c) ts ∧ ts ≠ [] ∧
      ∀ r, opens r = false → Spec.Wrap.equal D (ts ++ r) = some ((nm c, x c), r) := by
    intro c hcm
    obtain ⟨ts, h1, h2, -, -, h3⟩ := equal_read hq (hc.names c hcm) (h c hcm)
    exact ⟨ts, h1, h2, h3⟩
  let tk : α → List (Tok V) := fun c => if h : ∃ ts, Lexes D.quote (bs (txt c) ++ bs " = " ++ b c) ts ∧ ts ≠ [] ∧
      ∀ r, opens r = false → Spec.Wrap.equal D (ts ++ r) = some ((nm c, x c), r) then h.choose else []
  have htk : ∀ c ∈ l, Lexes D.quote (bs (txt c) ++ bs " = " ++ b c) (tk c) ∧ tk c ≠ [] ∧
      ∀ r, opens r = false → Spec.Wrap.equal D (tk c ++ r) = some ((nm c, x c), r) := by
    intro c hcm
    have : tk c = (hex c hcm).choose := dif_pos (hex c hcm)
    rw [this]
    exact (hex c hcm).choose_spec
  exact ⟨sep (l.map tk), lexes_comma hq _ tk l (fun c hc => (htk c hc).1) hc.ne, fun r ho hr =>
    many1_items _ tk (fun c => (nm c, x c)) l (fun c hc => (htk c hc).2.2) (fun c hc => (htk c hc).2.1) hc.ne r ho hr⟩

/-- How conditions on columns are written. -/
def condT (txt : α → String) (b : α → List (BSym V)) : List α → List (BSym V)
  | [c] => bs (txt c) ++ bs " = " ++ b c
  | cs => bs "(" ++ comma (cs.map fun c => bs (txt c)) ++ bs ") = (" ++ comma (cs.map b) ++ bs ")"

theorem cond_read (hc : Cols D txt nm l) (h : ∀ c ∈ l, ItemTxt D (b c) (x c)) :
    ∃ t, Lexes D.quote (condT txt b l) t ∧ ∀ r, opens r = false → Spec.Wrap.cond D (t ++ r) = some (l.map fun c => (nm c, x c), r) := by
  match l, hc with
  | [], hc => exact absurd rfl hc.ne
  | [c], hc =>
    obtain ⟨ts, h1, -, -, h2, h3⟩ := equal_read hq (hc.names c (by simp)) (h c (by simp))
    exact ⟨ts, h1, fun r ho => by simp [Spec.Wrap.cond, h2, h3 r ho]⟩
  | a :: c :: l, hc =>
    obtain ⟨ts, h1, h2⟩ := items_read hq h hc.ne
    refine ⟨[.sym '('] ++ (sep ((a :: c :: l).map fun c => [tokOf V D (txt c) (nm c)]) ++ ([.sym ')', .sym '=', .sym '('] ++
      (ts ++ [.sym ')']))), ?_, fun r ho => ?_⟩
    · unfold condT
      simp only [List.append_assoc]
      exact (idle_open hq).append ((hc.lexes hq).lit (lit_eq_open hq) (h1.lit_end (lit_close hq)))
    · generalize a :: c :: l = k at *
      have g1 := hc.parse (V := V)
      have g2 := h2 (.sym ')' :: r) rfl rfl
      have z : (k.map nm).zip (k.map x) = k.map fun c => (nm c, x c) := by simp [List.zip_map']
      simp [Spec.Wrap.cond, sym, g1, g2, z]

variable {tb : String} {tn : Name} (ht : NameTxt D tb tn)
include ht

theorem read_insert (hc : Cols D txt nm l) (h : ∀ c ∈ l, ItemTxt D (b c) (x c)) :
    Spec.Wrap.read D (bs "INSERT INTO " ++ bs tb ++ bs " (" ++ comma (l.map fun c => bs (txt c)) ++ bs ") VALUES (" ++
      comma (l.map b) ++ bs ")" ++ bs ";") = some (.insert tn (l.map nm) (l.map x) []) := by
  obtain ⟨ts, h1, h2⟩ := items_read hq h hc.ne
  have hl := ((idle_insert (V := V) hq).append ((tokOf_lexes ht).lit (lit_open hq) ((hc.lexes hq).lit (lit_values hq)
    (h1.lit (lit_close hq) (lit_end hq).idle.lexes)))).lex
  simp only [List.append_assoc]
  have g1 := hc.parse (V := V)
  have g2 := fun r => h2 (.sym ')' :: r) rfl rfl
  simp only [Spec.Wrap.read, hl, Option.bind_some, Spec.Wrap.stmt]
  simp [Spec.Wrap.insert?, Spec.Sql.kw, upper, sym, tokOf_name ht, g1, g2, done]

theorem read_insert_returning (hc : Cols D txt nm l) (h : ∀ c ∈ l, ItemTxt D (b c) (x c)) {k : List α} {b' : α → List (BSym V)}
    {x' : α → Ex V} (hk : k ≠ []) (h' : ∀ c ∈ k, ItemTxt D (b' c) (x' c)) :
    Spec.Wrap.read D (bs "INSERT INTO " ++ bs tb ++ bs " (" ++ comma (l.map fun c => bs (txt c)) ++ bs ") VALUES (" ++
      comma (l.map b) ++ bs ")" ++ (bs " RETURNING " ++ comma (k.map b')) ++ bs ";") =
      some (.insert tn (l.map nm) (l.map x) (k.map x')) := by
  obtain ⟨ts, h1, h2⟩ := items_read hq h hc.ne
  obtain ⟨us, h3, h4⟩ := items_read hq h' hk
  have hl := ((idle_insert (V := V) hq).append ((tokOf_lexes ht).lit (lit_open hq) ((hc.lexes hq).lit (lit_values hq)
    (h1.lit (lit_close hq) ((lit_returning hq).idle.append (h3.lit_end (lit_end hq))))))).lex
  simp only [List.append_assoc]
  have g1 := hc.parse (V := V)
  have g2 := fun r => h2 (.sym ')' :: r) rfl rfl
  have g3 := fun r => h4 (.sym ';' :: r) rfl rfl
  simp only [Spec.Wrap.read, hl, Option.bind_some, Spec.Wrap.stmt]
  simp [Spec.Wrap.insert?, Spec.Sql.kw, upper, sym, tokOf_name ht, g1, g2, g3, done]

theorem read_select (hl : l ≠ []) (h : ∀ c ∈ l, ItemTxt D (b c) (x c)) {k : List α} {b' : α → List (BSym V)} {x' : α → Ex V}
    (hk : Cols D txt nm k) (h' : ∀ c ∈ k, ItemTxt D (b' c) (x' c)) :
    Spec.Wrap.read D (bs "SELECT " ++ comma (l.map b) ++ bs " FROM " ++ bs tb ++ bs " WHERE " ++ condT txt b' k ++ bs " LIMIT 1;") =
      some (.select (l.map x) tn (k.map fun c => (nm c, x' c))) := by
  obtain ⟨ts, h1, h2⟩ := items_read hq h hl
  obtain ⟨us, h3, h4⟩ := cond_read hq hk h'
  have hl := ((idle_select (V := V) hq).append (h1.lit (lit_from hq) ((tokOf_lexes ht).lit (lit_where hq)
    (h3.lit_end (lit_limit hq))))).lex
  simp only [List.append_assoc]
  have g1 := fun w r => h2 (.word w :: r) rfl rfl
  have g2 := fun w r => h4 (.word w :: r) rfl
  simp only [Spec.Wrap.read, hl, Option.bind_some, Spec.Wrap.stmt]
  simp [Spec.Wrap.insert?, Spec.Wrap.select?, Spec.Sql.kw, upper, sym, tokOf_name ht, g1, g2, done]

theorem read_update (hc : Cols D txt nm l) (h : ∀ c ∈ l, ItemTxt D (b c) (x c)) {k : List α} {b' : α → List (BSym V)} {x' : α → Ex V}
    (hk : Cols D txt nm k) (h' : ∀ c ∈ k, ItemTxt D (b' c) (x' c)) :
    Spec.Wrap.read D (bs "UPDATE " ++ bs tb ++ bs " SET " ++ comma (l.map fun c => bs (txt c) ++ bs " = " ++ b c) ++
      bs " WHERE " ++ condT txt b' k ++ bs ";") =
      some (.update tn (l.map fun c => (nm c, x c)) (k.map fun c => (nm c, x' c))) := by
  obtain ⟨ts, h1, h2⟩ := sets_read hq hc h
  obtain ⟨us, h3, h4⟩ := cond_read hq hk h'
  have hl := ((idle_update (V := V) hq).append ((tokOf_lexes ht).lit (lit_set hq) (h1.lit (lit_where hq)
    (h3.lit_end (lit_end hq))))).lex
  simp only [List.append_assoc] at hl ⊢
  have g1 := fun w r => h2 (.word w :: r) rfl rfl
  have g2 := fun r => h4 (.sym ';' :: r) rfl
  simp only [Spec.Wrap.read, hl, Option.bind_some, Spec.Wrap.stmt]
  simp [Spec.Wrap.insert?, Spec.Wrap.select?, Spec.Wrap.update?, Spec.Sql.kw, upper, sym, tokOf_name ht, g1, g2, done]

theorem read_delete {k : List α} (hk : Cols D txt nm k) (h : ∀ c ∈ k, ItemTxt D (b c) (x c)) :
    Spec.Wrap.read D (bs "DELETE FROM " ++ bs tb ++ bs " WHERE " ++ condT txt b k ++ bs ";") =
      some (.delete tn (k.map fun c => (nm c, x c))) := by
  obtain ⟨us, h3, h4⟩ := cond_read hq hk h
  have hl := ((idle_delete (V := V) hq).append ((tokOf_lexes ht).lit (lit_where hq)
    (h3.lit_end (lit_end hq)))).lex
  simp only [List.append_assoc]
  have g2 := fun r => h4 (.sym ';' :: r) rfl
  simp only [Spec.Wrap.read, hl, Option.bind_some, Spec.Wrap.stmt]
  simp [Spec.Wrap.insert?, Spec.Wrap.select?, Spec.Wrap.update?, Spec.Wrap.delete?, Spec.Sql.kw, upper, sym, tokOf_name ht, g2, done]

end

end Verif.Wrap

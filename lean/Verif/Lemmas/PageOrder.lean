import Verif.Lemmas.PageLoop

/-!
# Lemmas about the statements of pagination with order columns: their parentheses do not balance
-/

namespace Verif.Store

open Verif Verif.Gen Verif.Spec Verif.Spec.Gen Verif.Spec.Sql Verif.Spec.Store Verif.Sql Verif.Helpers Verif.Spec.Helpers Verif.Spec.Pager

set_option linter.unusedSectionVars false

/-! ## Parentheses in tokens -/

section tokens
variable {V : Type}

def wgt (c : Char) : Int := if c = '(' then 1 else if c = ')' then -1 else 0

/-- Opening minus closing parentheses. -/
def tdep : List (Tok V) → Int
  | [] => 0
  | .sym c :: r => wgt c + tdep r
  | _ :: r => tdep r

theorem tdep_append (a b : List (Tok V)) : tdep (a ++ b) = tdep a + tdep b := by
  induction a with
  | nil => simp [tdep]
  | cons x a ih => cases x <;> simp [tdep, ih, Int.add_assoc]

theorem tdep_kw {k : String} {ts r : List (Tok V)} (h : Spec.Sql.kw k ts = some r) : tdep ts = tdep r := by
  cases ts with
  | nil => simp [Spec.Sql.kw] at h
  | cons x ts =>
    cases x <;> simp [Spec.Sql.kw] at h
    rw [← h.2]; rfl

theorem tdep_sym {c : Char} {ts r : List (Tok V)} (h : sym c ts = some r) : tdep ts = wgt c + tdep r := by
  cases ts with
  | nil => simp [sym] at h
  | cons x ts =>
    cases x <;> simp [sym] at h
    rw [h.1, ← h.2]; rfl

theorem tdep_value {ts r : List (Tok V)} {v : V} (h : value ts = some (v, r)) : tdep ts = tdep r := by
  cases ts with
  | nil => simp [value] at h
  | cons x ts =>
    cases x <;> simp [value] at h
    rw [← h.2]; rfl

theorem tdep_name {D : Spec.Sql.Dialect} {ts r : List (Tok V)} {n : Name} (h : name D ts = some (n, r)) : tdep ts = tdep r := by
  cases ts with
  | nil => simp [name] at h
  | cons x ts =>
    cases x <;> simp [name] at h
    · rw [← h.2.2]; rfl
    · rw [← h.2]; rfl

theorem tdep_many {A : Type} {p : List (Tok V) → Option (A × List (Tok V))}
    (hp : ∀ ts a r, p ts = some (a, r) → tdep ts = tdep r) :
    ∀ (n : Nat) (ts : List (Tok V)) (l : List A) (r : List (Tok V)), many p n ts = some (l, r) → tdep ts = tdep r := by
  intro n
  induction n with
  | zero => intro ts l r h; simp [many] at h
  | succ n ih =>
    intro ts l r h
    rw [many] at h
    cases e : p ts with
    | none => simp [e] at h
    | some x =>
      obtain ⟨a, r1⟩ := x
      have h1 := hp _ _ _ e
      cases e2 : sym ',' r1 with
      | none =>
        simp [e, e2] at h
        rw [h1, h.2]
      | some r2 =>
        have h2 := tdep_sym e2
        simp only [e, e2, Option.map_eq_some_iff] at h
        obtain ⟨⟨l', r'⟩, h3, h4⟩ := h
        cases h4
        rw [h1, h2, ih _ _ _ h3]
        simp [wgt]

theorem tdep_compare {ts r : List (Tok V)} {o : List Char} (h : compare? ts = some (o, r)) : tdep ts = tdep r := by
  unfold compare? at h
  split at h <;> simp at h <;> rw [← h.2] <;> simp [tdep, wgt]

theorem tdep_not (ts : List (Tok V)) : tdep (not? ts).2 = tdep ts := by
  unfold not?
  cases e : Spec.Sql.kw "NOT" ts with
  | none => rfl
  | some r => exact (tdep_kw e).symm

theorem tdep_predTail {col : Name} {ts r : List (Tok V)} {p : Pred V} (h : predTail col ts = some (p, r)) :
    tdep ts = tdep r := by
  unfold predTail at h
  cases e1 : compare? ts with
  | some x =>
    obtain ⟨op, r1⟩ := x
    simp only [e1, Option.bind_eq_bind, Option.bind_eq_some_iff] at h
    obtain ⟨⟨v, r2⟩, h2, h3⟩ := h
    cases h3
    rw [tdep_compare e1, tdep_value h2]
  | none =>
    simp only [e1] at h
    cases e2 : Spec.Sql.kw "IS" ts with
    | some r1 =>
      simp only [e2, Option.bind_eq_bind, Option.bind_eq_some_iff] at h
      obtain ⟨r2, h2, h3⟩ := h
      cases h3
      rw [tdep_kw e2, ← tdep_not r1, tdep_kw h2]
    | none =>
      simp only [e2] at h
      cases e3 : Spec.Sql.kw "IN" (not? ts).2 with
      | some r1 =>
        simp only [e3, Option.bind_eq_bind, Option.bind_eq_some_iff] at h
        obtain ⟨r2, h2, ⟨vs, r3⟩, h3, r4, h4, h5⟩ := h
        cases h5
        rw [← tdep_not ts, tdep_kw e3, tdep_sym h2, tdep_many (fun _ _ _ h => tdep_value h) _ _ _ _ h3, tdep_sym h4]
        simp [wgt]; omega
      | none =>
        simp only [e3] at h
        cases e4 : Spec.Sql.kw "BETWEEN" (not? ts).2 with
        | some r1 =>
          simp only [e4, Option.bind_eq_bind, Option.bind_eq_some_iff] at h
          obtain ⟨⟨a, r2⟩, h2, r3, h3, ⟨b, r4⟩, h4, h5⟩ := h
          cases h5
          rw [← tdep_not ts, tdep_kw e4, tdep_value h2, tdep_kw h3, tdep_value h4]
        | none =>
          simp only [e4, Option.bind_eq_bind, Option.bind_eq_some_iff] at h
          obtain ⟨r2, h2, ⟨v, r3⟩, h3, h5⟩ := h
          cases h5
          rw [← tdep_not ts, tdep_kw h2, tdep_value h3]

theorem tdep_pred {D : Spec.Sql.Dialect} {ts r : List (Tok V)} {p : Pred V} (h : pred D ts = some (p, r)) : tdep ts = tdep r := by
  unfold pred at h
  rw [Option.bind_eq_some_iff] at h
  obtain ⟨⟨n, r1⟩, h1, h2⟩ := h
  rw [tdep_name h1, tdep_predTail h2]

theorem tdep_exprs (D : Spec.Sql.Dialect) : ∀ (n : Nat) (ts r : List (Tok V)) (a : Ast V),
    (orExpr D n ts = some (a, r) → tdep ts = tdep r) ∧ (andExpr D n ts = some (a, r) → tdep ts = tdep r) ∧
    (primary D n ts = some (a, r) → tdep ts = tdep r) := by
  intro n
  induction n with
  | zero => intro ts r a; simp [orExpr, andExpr, primary]
  | succ n ih =>
    intro ts r a
    refine ⟨fun h => ?_, fun h => ?_, fun h => ?_⟩
    · rw [orExpr] at h
      cases e : andExpr D n ts with
      | none => simp [e] at h
      | some x =>
        obtain ⟨b, r1⟩ := x
        have h1 := (ih ts r1 b).2.1 e
        cases e2 : Spec.Sql.kw "OR" r1 with
        | none => simp [e, e2] at h; rw [h1, h.2]
        | some r2 =>
          simp only [e, e2, Option.map_eq_some_iff] at h
          obtain ⟨⟨b', r3⟩, h3, h4⟩ := h
          cases h4
          rw [h1, tdep_kw e2, (ih _ _ _).1 h3]
    · rw [andExpr] at h
      cases e : primary D n ts with
      | none => simp [e] at h
      | some x =>
        obtain ⟨b, r1⟩ := x
        have h1 := (ih ts r1 b).2.2 e
        cases e2 : Spec.Sql.kw "AND" r1 with
        | none => simp [e, e2] at h; rw [h1, h.2]
        | some r2 =>
          simp only [e, e2, Option.map_eq_some_iff] at h
          obtain ⟨⟨b', r3⟩, h3, h4⟩ := h
          cases h4
          rw [h1, tdep_kw e2, (ih _ _ _).2.1 h3]
    · rw [primary] at h
      cases e : sym '(' ts with
      | none =>
        simp only [e, Option.map_eq_some_iff] at h
        obtain ⟨⟨b', r3⟩, h3, h4⟩ := h
        cases h4
        exact tdep_pred h3
      | some r1 =>
        simp only [e] at h
        cases e2 : orExpr D n r1 with
        | none => simp [e2] at h
        | some x =>
          obtain ⟨b, r2⟩ := x
          simp only [e2, Option.map_eq_some_iff] at h
          obtain ⟨r3, h3, h4⟩ := h
          cases h4
          rw [tdep_sym e, (ih _ _ _).1 e2, tdep_sym h3]
          simp [wgt]; omega

theorem tdep_expr {D : Spec.Sql.Dialect} {ts r : List (Tok V)} {a : Ast V} (h : expr D ts = some (a, r)) : tdep ts = tdep r :=
  (tdep_exprs D _ ts r a).1 h

theorem tdep_rowCond {D : Spec.Sql.Dialect} {ts r : List (Tok V)} {a : PCond V} (h : rowCond D ts = some (a, r)) :
    tdep ts = tdep r := by
  unfold rowCond at h
  simp only [Option.bind_eq_bind, Option.bind_eq_some_iff] at h
  obtain ⟨r1, h1, r2, h2, ⟨ns, r3⟩, h3, r4, h4, ⟨op, r5⟩, h5, r6, h6, ⟨vs, r7⟩, h7, r8, h8, r9, h9, h10⟩ := h
  have e : r9 = r := by
    simp only at h10
    split at h10
    · exact absurd h10 (by simp)
    · split at h10
      · cases h10; rfl
      · split at h10
        · cases h10; rfl
        · exact absurd h10 (by simp)
  rw [tdep_sym h1, tdep_sym h2, tdep_many (fun _ _ _ h => tdep_name h) _ _ _ _ h3, tdep_sym h4, tdep_compare h5, tdep_sym h6,
    tdep_many (fun _ _ _ h => tdep_value h) _ _ _ _ h7, tdep_sym h8, tdep_sym h9, e]
  simp [wgt]; omega

theorem tdep_where {D : Spec.Sql.Dialect} {ts r : List (Tok V)} {a : Option (PCond V)} (h : pageWhere D ts = some (a, r)) :
    tdep ts = tdep r := by
  unfold pageWhere at h
  cases e : Spec.Sql.kw "WHERE" ts with
  | none => simp [e] at h; rw [h.2]
  | some r1 =>
    simp only [e] at h
    cases e2 : expr D r1 with
    | some x =>
      simp [e2] at h
      rw [tdep_kw e, tdep_expr (a := x.1) (r := x.2) e2, h.2]
    | none =>
      simp only [e2, Option.map_eq_some_iff] at h
      obtain ⟨⟨b, r2⟩, h3, h4⟩ := h
      cases h4
      rw [tdep_kw e, tdep_rowCond h3]

theorem tdep_direction (ts : List (Tok V)) : tdep (direction ts).2 = tdep ts := by
  unfold direction
  cases e : Spec.Sql.kw "DESC" ts with
  | some r => exact (tdep_kw e).symm
  | none =>
    cases e2 : Spec.Sql.kw "ASC" ts with
    | some r => exact (tdep_kw e2).symm
    | none => rfl

theorem tdep_item {br : Brand} {D : Spec.Sql.Dialect} {ts r : List (Tok V)} {a : List (Name × Bool)}
    (h : pageOrderItem br D ts = some (a, r)) : tdep ts = tdep r := by
  unfold pageOrderItem at h
  cases e : sym '(' ts with
  | some r1 =>
    simp only [e, Option.bind_eq_bind, Option.bind_eq_some_iff] at h
    obtain ⟨⟨ns, r2⟩, h2, r3, h3, h4⟩ := h
    simp only at h4
    split at h4
    · exact absurd h4 (by simp)
    · cases h4
      rw [tdep_sym e, tdep_many (fun _ _ _ h => tdep_name h) _ _ _ _ h2, tdep_sym h3, tdep_direction]
      simp [wgt]; omega
  | none =>
    simp only [e, Option.bind_eq_bind, Option.bind_eq_some_iff] at h
    obtain ⟨⟨n, r2⟩, h2, h4⟩ := h
    cases h4
    rw [tdep_name h2, tdep_direction]

theorem tdep_order {br : Brand} {D : Spec.Sql.Dialect} {ts r : List (Tok V)} {a : List (Name × Bool)}
    (h : pageOrder br D ts = some (a, r)) : tdep ts = tdep r := by
  unfold pageOrder at h
  cases e : Spec.Sql.kw "ORDER" ts with
  | none => simp [e] at h; rw [h.2]
  | some r1 =>
    simp only [e, Option.map_eq_some_iff, Option.bind_eq_some_iff] at h
    obtain ⟨⟨l, r2⟩, ⟨r3, h3, h4⟩, h5⟩ := h
    cases h5
    rw [tdep_kw e, tdep_kw h3, tdep_many (fun _ _ _ h => tdep_item h) _ _ _ _ h4]

theorem tdep_count {k : String} {ts r : List (Tok V)} {a : Option Nat} (h : count? k ts = some (a, r)) : tdep ts = tdep r := by
  unfold count? at h
  split at h
  · next w r' e =>
    simp only [Option.map_eq_some_iff] at h
    obtain ⟨n, -, h4⟩ := h
    cases h4
    rw [tdep_kw e]
    rfl
  · exact absurd h (by simp)
  · cases h; rfl

/-- What is accepted has balanced parentheses. -/
theorem tdep_page {br : Brand} {D : Spec.Sql.Dialect} {ts : List (Tok V)} {s : PageStmt V} (h : page? br D ts = some s) :
    tdep ts = 0 := by
  unfold page? at h
  simp only [Option.bind_eq_bind, Option.bind_eq_some_iff] at h
  obtain ⟨r1, h1, ⟨cs, r2⟩, h2, r3, h3, ⟨tn, r4⟩, h4, ⟨c, r5⟩, h5, ⟨o, r6⟩, h6, ⟨l, r7⟩, h7, ⟨⟩, h8, -⟩ := h
  rw [tdep_kw h1, tdep_many (fun _ _ _ h => tdep_name h) _ _ _ _ h2, tdep_kw h3, tdep_name h4, tdep_where h5, tdep_order h6,
    tdep_count h7]
  unfold done at h8
  split at h8
  · next e => rw [tdep_sym e]; rfl
  · exact absurd h8 (by simp)

end tokens

/-! ## Parentheses in texts, outside of quotes -/

section texts
variable {V : Type}

/-- Within quotes at the end. -/
def qin (q : Char) : Bool → List (BSym V) → Bool
  | b, [] => b
  | b, .val _ :: r => qin q b r
  | b, .ch c :: r => qin q (if c = q then !b else b) r

/-- Opening minus closing parentheses outside of quotes. -/
def qdep (q : Char) : Bool → List (BSym V) → Int
  | _, [] => 0
  | b, .val _ :: r => qdep q b r
  | b, .ch c :: r => (if b then 0 else wgt c) + qdep q (if c = q then !b else b) r

/-- A text that begins and ends outside of quotes. -/
def Weighs (q : Char) (k : Int) (a : List (BSym V)) : Prop := qin q false a = false ∧ qdep q false a = k

theorem q_append (q : Char) (b : Bool) (x y : List (BSym V)) :
    qin q b (x ++ y) = qin q (qin q b x) y ∧ qdep q b (x ++ y) = qdep q b x + qdep q (qin q b x) y := by
  induction x generalizing b with
  | nil => simp [qin, qdep]
  | cons s x ih => cases s <;> simp [qin, qdep, ih, Int.add_assoc]

theorem Weighs.append {q : Char} {k l : Int} {x y : List (BSym V)} (hx : Weighs q k x) (hy : Weighs q l y) :
    Weighs q (k + l) (x ++ y) := by
  obtain ⟨h1, h2⟩ := q_append q false x y
  rw [hx.1] at h1 h2
  exact ⟨by rw [h1, hy.1], by rw [h2, hx.2, hy.2]⟩

theorem Weighs.cons_val {q : Char} {k : Int} {x : List (BSym V)} (v : V) (hx : Weighs q k x) : Weighs q k (.val v :: x) := hx

theorem weighs_nil (q : Char) : Weighs q 0 ([] : List (BSym V)) := ⟨rfl, rfl⟩

/-- Within quotes. -/
def inside : St → Bool
  | .quoted _ => true
  | _ => false

variable {q : Char} (hq : IsQuote q)
include hq

theorem wgt_quote : wgt q = 0 := by rcases hq with e | e <;> rw [e] <;> rfl

theorem start_dep (c : Char) : tdep (start (V := V) q c).1 = wgt c ∧ inside (start (V := V) q c).2 = decide (c = q) := by
  unfold start
  by_cases h1 : c = q
  · simp [h1, tdep, wgt_quote hq, inside]
  · by_cases h2 : c = ' '
    · subst h2; simp [h1, tdep, inside, wgt]
    · by_cases h3 : isWord c = true
      · have e : wgt c = 0 := by
          unfold wgt
          by_cases e1 : c = '('
          · subst e1; revert h3; decide
          · by_cases e2 : c = ')'
            · subst e2; revert h3; decide
            · simp [e1, e2]
        simp [h1, h2, h3, tdep, e, inside]
      · simp [h1, h2, h3, tdep, inside]

theorem flush_dep {s : St} {ts : List (Tok V)} (h : Spec.Sql.flush s = some ts) : tdep ts = 0 ∧ inside s = false := by
  cases s with
  | idle => simp [Spec.Sql.flush] at h; subst h; exact ⟨rfl, rfl⟩
  | word w => simp [Spec.Sql.flush] at h; subst h; exact ⟨rfl, rfl⟩
  | quoted s => simp [Spec.Sql.flush] at h
  | closed s =>
    simp only [Spec.Sql.flush] at h
    split at h
    · exact absurd h (by simp)
    · cases h; exact ⟨rfl, rfl⟩

theorem step_dep {s s' : St} {b : BSym V} {ts : List (Tok V)} (h : step q s b = some (ts, s')) :
    match b with
    | .val _ => tdep ts = 0 ∧ inside s' = inside s ∧ inside s = false
    | .ch c => tdep ts = (if inside s then 0 else wgt c) ∧ inside s' = if c = q then !inside s else inside s := by
  cases b with
  | val v =>
    cases s <;> simp [step] at h
    obtain ⟨rfl, rfl⟩ := h
    exact ⟨rfl, rfl, rfl⟩
  | ch c =>
    simp only
    obtain ⟨hd, hi⟩ := start_dep (V := V) hq c
    cases s with
    | idle =>
      simp only [step, Option.some.injEq] at h
      rw [Prod.ext_iff] at h
      simp only at h
      rw [← h.1, ← h.2, hd, hi]
      by_cases e : c = q <;> simp [inside, e]
    | word w =>
      simp only [step] at h
      by_cases e : isWord c = true ∧ c ≠ q
      · rw [if_pos e] at h
        cases h
        have : wgt c = 0 := by
          unfold wgt
          by_cases e1 : c = '('
          · subst e1; exact absurd e.1 (by decide)
          · by_cases e2 : c = ')'
            · subst e2; exact absurd e.1 (by decide)
            · simp [e1, e2]
        simp [inside, e.2, tdep, this]
      · rw [if_neg e] at h
        simp only [next, Option.some.injEq] at h
        rw [Prod.ext_iff] at h
        simp only at h
        rw [← h.1, ← h.2, tdep_append, hd, hi]
        by_cases e : c = q <;> simp [inside, e, tdep]
    | quoted w =>
      simp only [step, Option.some.injEq] at h
      cases h
      by_cases e : c = q <;> simp [inside, e, tdep]
    | closed w =>
      simp only [step] at h
      by_cases e : c = q
      · rw [if_pos e] at h
        cases h
        simp [inside, e, tdep, wgt_quote hq]
      · rw [if_neg e, Option.map_eq_some_iff] at h
        obtain ⟨u, hu, h⟩ := h
        simp only [next] at h
        rw [Prod.ext_iff] at h
        simp only at h
        rw [← h.1, ← h.2, tdep_append, hd, hi, (flush_dep hq hu).1]
        simp [inside, e]

/-- Reading keeps parentheses. -/
theorem lex_dep (s : St) (b : List (BSym V)) (ts : List (Tok V)) (h : Spec.Sql.lex q s b = some ts) :
    tdep ts = qdep q (inside s) b ∧ qin q (inside s) b = false := by
  induction b generalizing s ts with
  | nil => exact ⟨(flush_dep hq h).1, (flush_dep hq h).2⟩
  | cons c b ih =>
    rw [Spec.Sql.lex] at h
    cases e : step q s c with
    | none => simp [e] at h
    | some x =>
      obtain ⟨u, s'⟩ := x
      simp only [e, Option.map_eq_some_iff] at h
      obtain ⟨ts', h1, rfl⟩ := h
      obtain ⟨i1, i2⟩ := ih s' ts' h1
      have := step_dep hq e
      cases c with
      | val v => rw [tdep_append, i1, this.1, this.2.1]; simpa [qdep, qin, this.2.1] using i2
      | ch c =>
        rw [tdep_append, i1, this.1, this.2]
        rw [this.2] at i2
        exact ⟨rfl, i2⟩

theorem Lexes.weighs {a : List (BSym V)} {u : List (Tok V)} (h : Lexes q a u) : Weighs q (tdep u) a := by
  obtain ⟨h1, h2⟩ := lex_dep hq .idle a u h.lex
  exact ⟨h2, h1.symm⟩

end texts

/-! ## Texts with placeholders -/

/-- Placeholders as values. -/
def shape : Txt → List (BSym Unit)
  | [] => []
  | .ch c :: r => .ch c :: shape r
  | _ :: r => .val () :: shape r

theorem shape_append (a b : Txt) : shape (a ++ b) = shape a ++ shape b := by
  induction a with
  | nil => rfl
  | cons s a ih => cases s <;> simp [shape, ih]

theorem shape_tx (s : String) : shape (tx s) = bs s := by
  unfold tx bs
  induction s.toList with
  | nil => rfl
  | cons c l ih => simp [shape, ih]

def blank {V : Type} : BSym V → BSym Unit
  | .ch c => .ch c
  | .val _ => .val ()

theorem shape_tx_blank {V : Type} (s : String) : shape (tx s) = (bs s : List (BSym V)).map blank := by
  rw [shape_tx]
  unfold bs
  induction s.toList with
  | nil => rfl
  | cons c l ih => simp [blank, ih]

section
variable {V : Type}

theorem bindAnon_shape (t : Txt) (as : List V) (b : List (BSym V)) (h : bindAnon t as = some b) : b.map blank = shape t := by
  induction t generalizing as b with
  | nil => cases as <;> simp [bindAnon] at h; subst h; rfl
  | cons s t ih =>
    cases s with
    | ch c =>
      simp only [bindAnon, Option.map_eq_some_iff] at h
      obtain ⟨x, hx, rfl⟩ := h
      simp [shape, blank, ih _ _ hx]
    | anon =>
      cases as with
      | nil => simp [bindAnon] at h
      | cons v as =>
        simp only [bindAnon, Option.map_eq_some_iff] at h
        obtain ⟨x, hx, rfl⟩ := h
        simp [shape, blank, ih _ _ hx]
    | num n => simp [bindAnon] at h

theorem substNum_shape (as : List V) (t : Txt) (b : List (BSym V)) (h : substNum as t = some b) : b.map blank = shape t := by
  induction t generalizing b with
  | nil => simp [substNum] at h; subst h; rfl
  | cons s t ih =>
    cases s with
    | ch c =>
      simp only [substNum, Option.map_eq_some_iff] at h
      obtain ⟨x, hx, rfl⟩ := h
      simp [shape, blank, ih _ hx]
    | anon => simp [substNum] at h
    | num n =>
      cases n with
      | zero => simp [substNum] at h
      | succ k =>
        simp only [substNum] at h
        split at h
        · next v r h1 h2 =>
          simp only [Option.some.injEq] at h
          subst h
          simp [shape, blank, ih _ h2]
        · exact absurd h (by simp)

theorem bind_shape {st : Style} {t : Txt} {as : List V} {b : List (BSym V)} (h : Spec.bind st t as = some b) :
    b.map blank = shape t := by
  cases st with
  | anon => exact bindAnon_shape t as b h
  | numbered =>
    have h : bindNum t as = some b := h
    unfold bindNum at h
    split at h
    · exact substNum_shape as t b h
    · exact absurd h (by simp)

theorem q_blank (q : Char) (b : Bool) (x : List (BSym V)) :
    qin q b (x.map blank) = qin q b x ∧ qdep q b (x.map blank) = qdep q b x := by
  induction x generalizing b with
  | nil => exact ⟨rfl, rfl⟩
  | cons s x ih => cases s <;> simp [blank, qin, qdep, ih]

theorem weighs_blank {q : Char} {k : Int} {x : List (BSym V)} : Weighs q k (x.map blank) ↔ Weighs q k x := by
  unfold Weighs
  rw [(q_blank q false x).1, (q_blank q false x).2]

/-- A statement extended by a text. -/
def Adds (q : Char) (k : Int) (s s' : Verif.Stmt V) : Prop := ∃ a, s'.text = s.text ++ a ∧ Weighs q k (shape a)

theorem Adds.trans {q : Char} {k l : Int} {a b c : Verif.Stmt V} (h1 : Adds q k a b) (h2 : Adds q l b c) : Adds q (k + l) a c := by
  obtain ⟨x, e1, w1⟩ := h1
  obtain ⟨y, e2, w2⟩ := h2
  exact ⟨x ++ y, by rw [e2, e1, List.append_assoc], by rw [shape_append]; exact w1.append w2⟩

theorem Adds.refl (q : Char) (s : Verif.Stmt V) : Adds q 0 s s := ⟨[], by simp, weighs_nil q⟩

theorem adds_write {q : Char} {k : Int} (s : Verif.Stmt V) {a : Txt} (h : Weighs q k (shape a)) : Adds q k s (s.write a) :=
  ⟨a, rfl, h⟩

/-- A string outside of quotes. -/
def Flatly (q : Char) (k : Int) (x : String) : Prop := Weighs q k (bs x : List (BSym Unit))

theorem Flatly.tx {q : Char} {k : Int} {x : String} (h : Flatly q k x) : Weighs q k (shape (tx x)) := by rw [shape_tx]; exact h

theorem Flatly.append {q : Char} {k l : Int} {x y : String} (hx : Flatly q k x) (hy : Flatly q l y) : Flatly q (k + l) (x ++ y) := by
  unfold Flatly
  rw [bs_append]
  exact Weighs.append hx hy

theorem adds_writeS {q : Char} {k : Int} (s : Verif.Stmt V) {x : String} (h : Flatly q k x) : Adds q k s (s.writeS x) :=
  adds_write s h.tx

theorem weighs_var (st : Style) {q : Char} {k : Int} (n : Nat) {a : Txt} (h : Weighs q k (shape a)) :
    Weighs q k (shape (st.var n :: a)) := by cases st <;> exact h

end

/-! ## The statement of a round -/

section loops
variable {V R : Type} {q : Char} (hq : IsQuote q)
include hq

theorem flatly_name {D : Spec.Sql.Dialect} (hd : IsQuote D.quote) {x : String} {n : Name} (hx : NameTxt D x n) : Flatly D.quote 0 x := by
  have h1 := Lexes.weighs hd (tokOf_lexes (V := Unit) hx)
  have h2 := tdep_name (tokOf_name (V := Unit) hx [])
  rw [h2] at h1
  exact h1

theorem flatly_join (l : List String) (hl : ∀ x ∈ l, Flatly q 0 x) : Flatly q 0 (joinStr "," l) := by
  induction l with
  | nil => exact weighs_nil q
  | cons x l ih =>
    cases l with
    | nil => exact hl x (by simp)
    | cons y l =>
      have hc : Flatly q 0 "," := by rcases hq with e | e <;> rw [e] <;> exact ⟨rfl, rfl⟩
      exact ((hl x (by simp)).append hc).append (ih fun z hz => hl z (by simp [hz]))

omit hq in
theorem flatly_if {b : Bool} {x y : String} {k : Int} (hx : Flatly q k x) (hy : Flatly q k y) : Flatly q k (if b then x else y) := by
  cases b <;> assumption

theorem nextLoop_adds (st : Style) (val : String → Res V) (sep up down : String)
    (hsep : Flatly q 0 sep) (hu : Flatly q 0 up) (hd : Flatly q 0 down) (os : List Order) (ho : ∀ o ∈ os, Flatly q 0 o.col) :
    ∀ (i : Nat) (s s' : Verif.Stmt V), Pager.nextLoop st val sep up down i os s = .ok s' → Adds q 0 s s' := by
  induction os with
  | nil => intro i s s' h; simp only [Pager.nextLoop, Res.ok.injEq] at h; rw [h]; exact Adds.refl q s'
  | cons o os ih =>
    intro i s s' h
    simp only [Pager.nextLoop, Res.bind_eq_ok] at h
    obtain ⟨v, _, h⟩ := h
    have h2 := ih (fun x hx => ho x (by simp [hx])) _ _ _ h
    have h1 : ∀ s1 : Verif.Stmt V, Adds q 0 s1 ((s1.var st v).1.write (tx o.col ++ tx (if o.asc then up else down) ++ (s1.var st v).2)) := by
      intro s1
      refine ⟨_, rfl, ?_⟩
      rw [shape_append, shape_append]
      exact (((ho o (by simp)).tx).append (flatly_if hu hd).tx).append (weighs_var st _ (a := []) (weighs_nil q))
    by_cases hi : i > 0
    · simp only [hi, if_true] at h2
      exact ((adds_writeS s hsep).trans (h1 _)).trans h2
    · simp only [hi, if_false] at h2
      exact (h1 _).trans h2

theorem prevLoop_adds (st : Style) (val : String → Res V) (os : List Order) (ho : ∀ o ∈ os, Flatly q 0 o.col) :
    ∀ (s : Verif.Stmt V) (buf : Txt) (s' : Verif.Stmt V) (buf' : Txt), Pager.prevLoop st val os s buf = .ok (s', buf') →
      Adds q 0 s s' ∧ (Weighs q 0 (shape buf) → Weighs q 0 (shape buf')) := by
  induction os with
  | nil =>
    intro s buf s' buf' h
    simp only [Pager.prevLoop, Res.ok.injEq, Prod.mk.injEq] at h
    rw [h.1, h.2]
    exact ⟨Adds.refl q s', id⟩
  | cons o os ih =>
    intro s buf s' buf' h
    simp only [Pager.prevLoop, Res.bind_eq_ok] at h
    obtain ⟨v, _, h⟩ := h
    obtain ⟨h1, h2⟩ := ih (fun x hx => ho x (by simp [hx])) _ _ _ _ h
    have lit : ∀ x ∈ [" <= ", " >= ", " < ", " > ", " AND ", " OR "], Flatly q 0 x := by
      intro x hx
      simp only [List.mem_cons, List.not_mem_nil, or_false] at hx
      rcases hq with e | e <;> rw [e] <;> rcases hx with e | e | e | e | e | e <;> rw [e] <;> exact ⟨rfl, rfl⟩
    have hv : ∀ n, Weighs q 0 (shape [st.var n]) := fun n => weighs_var st _ (a := []) (weighs_nil q)
    have hc := (ho o (by simp)).tx
    constructor
    · refine Adds.trans (k := 0) (l := 0) ⟨_, rfl, ?_⟩ h1
      rw [shape_append, shape_append, shape_append]
      exact ((hc.append (flatly_if (lit _ (by simp)) (lit _ (by simp))).tx).append (hv _)).append (lit _ (by simp)).tx
    · intro hb
      apply h2
      rw [shape_append, shape_append, shape_append, shape_append]
      exact (((hb.append hc).append (flatly_if (lit _ (by simp)) (lit _ (by simp))).tx).append (hv _)).append (lit _ (by simp)).tx

/-- One parenthesis is opened and not closed (`blr.WriteString("(" ...)`, `" AND ("`). -/
theorem orderCond_adds (st : Style) (m : Mdl R V) (d : Pager.Dir) (os : List Order) (hne : os ≠ [])
    (ho : ∀ o ∈ os, Flatly q 0 o.col) (r : R) (s s' : Verif.Stmt V) (h : Pager.orderCond st m d os r s = .ok s') :
    Adds q 1 s s' := by
  have lit0 : ∀ x ∈ [" >= ", " <= ", " > ", " < ", " AND ", " OR "], Flatly q 0 x := by
    intro x hx
    simp only [List.mem_cons, List.not_mem_nil, or_false] at hx
    rcases hq with e | e <;> rw [e] <;> rcases hx with e | e | e | e | e | e <;> rw [e] <;> exact ⟨rfl, rfl⟩
  have lit1 : ∀ x ∈ [" AND (", "("], Flatly q 1 x := by
    intro x hx
    simp only [List.mem_cons, List.not_mem_nil, or_false] at hx
    rcases hq with e | e <;> rw [e] <;> rcases hx with e | e <;> rw [e] <;> exact ⟨rfl, rfl⟩
  cases os with
  | nil => exact absurd rfl hne
  | cons o os =>
    cases d with
    | next =>
      simp only [Pager.orderCond, Res.bind_eq_ok] at h
      obtain ⟨s1, h1, s2, h2, h3⟩ := h
      have e1 := nextLoop_adds hq st _ _ _ _ (lit0 _ (by simp)) (lit0 _ (by simp)) (lit0 _ (by simp)) _ ho _ _ _ h1
      have e2 := nextLoop_adds hq st _ _ _ _ (lit0 _ (by simp)) (lit0 _ (by simp)) (lit0 _ (by simp)) _ ho _ _ _ h2
      simp only [Res.ok.injEq] at h3
      subst h3
      exact ((e1.trans (adds_writeS s1 (lit1 _ (by simp)))).trans e2).trans (adds_writeS s2 (lit0 " OR " (by simp)))
    | prev =>
      simp only [Pager.orderCond, Res.bind_eq_ok] at h
      obtain ⟨⟨s1, buf⟩, h1, h2⟩ := h
      obtain ⟨e1, e2⟩ := prevLoop_adds hq st _ _ ho _ _ _ _ h1
      simp only [Res.ok.injEq] at h2
      subst h2
      refine Adds.trans (k := 0) (l := 1) e1 ⟨_, rfl, ?_⟩
      rw [shape_append]
      exact Weighs.append (k := 1) (l := 0) (lit1 "(" (by simp)).tx (e2 (weighs_nil q))

theorem weighs_lit (c : Char) (h1 : c ≠ q) (h2 : wgt c = 0) {a : List (BSym V)} {k : Int} (ha : Weighs q k a) :
    Weighs q k (.ch c :: a) := by
  unfold Weighs at *
  simp [qin, qdep, h1, h2, ha]

theorem vars_adds (st : Style) (s s' : Verif.Stmt V) (vs : List V) (p : Txt) (h : s.vars st vs = .ok (s', p)) :
    s'.text = s.text ∧ Weighs q 0 (shape p) := by
  have l1 : Flatly q 1 "(" := by rcases hq with e | e <;> rw [e] <;> exact ⟨rfl, rfl⟩
  have l2 : Flatly q (-1) ")" := by rcases hq with e | e <;> rw [e] <;> exact ⟨rfl, rfl⟩
  have hc : ',' ≠ q := by rcases hq with e | e <;> rw [e] <;> decide
  cases st with
  | anon =>
    simp only [Stmt.vars] at h
    cases vs with
    | nil => simp [Stmt.repeatVar] at h
    | cons v vs =>
      have e : Stmt.repeatVar (v :: vs).length = .ch ',' :: .anon :: Stmt.repeatVar vs.length := rfl
      rw [e] at h
      simp only [Res.ok.injEq, Prod.mk.injEq] at h
      obtain ⟨rfl, rfl⟩ := h
      have hr : ∀ n, Weighs q 0 (shape (Stmt.repeatVar n)) := by
        intro n
        induction n with
        | zero => exact weighs_nil q
        | succ n ih => exact weighs_lit hq ',' hc rfl (Weighs.cons_val () ih)
      refine ⟨rfl, ?_⟩
      rw [shape_append, shape_append]
      exact Weighs.append (k := 1) (l := -1) (Weighs.append (k := 1) (l := 0) l1.tx (Weighs.cons_val () (hr _))) l2.tx
  | numbered =>
    simp only [Stmt.vars, Res.ok.injEq, Prod.mk.injEq] at h
    obtain ⟨rfl, rfl⟩ := h
    have hr : ∀ n i, Weighs q 0 (shape (Stmt.varsLoop i n)) := by
      intro n
      induction n with
      | zero => intro i; exact weighs_nil q
      | succ n ih =>
        intro i
        rw [Stmt.varsLoop]
        split
        · exact Weighs.cons_val () (weighs_lit hq ',' hc rfl (ih _))
        · exact Weighs.cons_val () (ih _)
    refine ⟨rfl, ?_⟩
    rw [shape_append, shape_append]
    exact Weighs.append (k := 1) (l := -1) (Weighs.append (k := 1) (l := 0) l1.tx (hr _ _)) l2.tx

/-- The names of the key. -/
def KeyFlat (q : Char) (m : Mdl R V) : Prop :=
  match m.key with
  | .none => False
  | .single _ n _ _ => Flatly q 0 n
  | .comp ns _ vals => (∀ n ∈ ns, Flatly q 0 n) ∧ ∀ r, vals r ≠ []

theorem keyCmp_adds (st : Style) (m : Mdl R V) (hm : KeyFlat q m) (d : Pager.Dir) (r : R) (s : Verif.Stmt V) :
    ∃ s', Pager.keyCmp st m d r s = .ok s' ∧ Adds q 0 s s' := by
  have l1 : Flatly q 1 "(" := by rcases hq with e | e <;> rw [e] <;> exact ⟨rfl, rfl⟩
  have l1' : Flatly q 2 "((" := by rcases hq with e | e <;> rw [e] <;> exact ⟨rfl, rfl⟩
  have l2 : Flatly q (-1) ")" := by rcases hq with e | e <;> rw [e] <;> exact ⟨rfl, rfl⟩
  have l3 : Flatly q 0 (match d with | .next => " >= " | .prev => " <= ") := by
    rcases hq with e | e <;> rw [e] <;> cases d <;> exact ⟨rfl, rfl⟩
  unfold KeyFlat at hm
  unfold Pager.keyCmp
  cases e : m.key with
  | none => rw [e] at hm; exact hm.elim
  | single a n i val =>
    rw [e] at hm
    refine ⟨_, rfl, _, rfl, ?_⟩
    rw [shape_append, shape_append]
    exact Weighs.append (k := 1) (l := -1) (Weighs.append (k := 1) (l := 0) ((l1.append hm).append l3).tx
      (weighs_var st _ (a := []) (weighs_nil q))) l2.tx
  | comp names is vals =>
    rw [e] at hm
    have : ∃ s1 p, s.vars st (vals r) = .ok (s1, p) := by
      unfold Stmt.vars
      cases st with
      | numbered => exact ⟨_, _, rfl⟩
      | anon =>
        cases hv : vals r with
        | nil => exact absurd hv (hm.2 r)
        | cons v vs => exact ⟨_, _, rfl⟩
    obtain ⟨s1, p, h1⟩ := this
    obtain ⟨e1, e2⟩ := vars_adds hq st s s1 _ p h1
    simp only [h1, Res.ok_bind]
    refine ⟨_, rfl, tx ("((" ++ joinStr "," names ++ ")" ++ _) ++ p ++ tx ")", by rw [← e1]; rfl, ?_⟩
    rw [shape_append, shape_append]
    exact Weighs.append (k := 1) (l := -1) (Weighs.append (k := 1) (l := 0)
      (Flatly.tx (((Flatly.append (k := 2) (l := 0) l1' (flatly_join hq names hm.1)).append l2).append l3)) e2) l2.tx

theorem cursorCond_adds (st : Style) (m : Mdl R V) (hm : KeyFlat q m) (d : Pager.Dir) (cur : Bool) (r : R) (s : Verif.Stmt V) :
    ∃ s', Pager.cursorCond st m d cur r s = .ok s' ∧ Adds q 0 s s' := by
  unfold Pager.cursorCond
  cases cur with
  | false => exact ⟨s, rfl, Adds.refl q s⟩
  | true => exact keyCmp_adds hq st m hm d r s

theorem orderLoop_adds (os : List Order) (ho : ∀ o ∈ os, Flatly q 0 o.col) (s : Verif.Stmt V) : Adds q 0 s (Pager.orderLoop os s) := by
  induction os generalizing s with
  | nil => exact Adds.refl q s
  | cons o os ih =>
    have l : Flatly q 0 (if o.asc then " ASC," else " DESC,") := by
      rcases hq with e | e <;> rw [e] <;> exact flatly_if ⟨rfl, rfl⟩ ⟨rfl, rfl⟩
    exact (adds_writeS s ((ho o (by simp)).append l)).trans (ih (fun x hx => ho x (by simp [hx])) _)

theorem keyOrder_adds (m : Mdl R V) (hm : KeyFlat q m) {a b : String} (ha : Flatly q 0 a) (hb : Flatly q 0 b) (s : Verif.Stmt V) :
    ∃ s', Pager.keyOrder m a b s = .ok s' ∧ Adds q 0 s s' := by
  have l1 : Flatly q 1 "(" := by rcases hq with e | e <;> rw [e] <;> exact ⟨rfl, rfl⟩
  have l2 : Flatly q (-1) ")" := by rcases hq with e | e <;> rw [e] <;> exact ⟨rfl, rfl⟩
  unfold KeyFlat at hm
  unfold Pager.keyOrder
  cases e : m.key with
  | none => rw [e] at hm; exact hm.elim
  | single x n i val =>
    rw [e] at hm
    exact ⟨_, rfl, adds_writeS s (hm.append ha)⟩
  | comp names is vals =>
    rw [e] at hm
    exact ⟨_, rfl, adds_writeS s (Flatly.append (k := 0) (l := 0) (Flatly.append (k := 1) (l := -1)
      (Flatly.append (k := 1) (l := 0) l1 (flatly_join hq names hm.1)) l2) hb)⟩

theorem orderPart_adds (m : Mdl R V) (hm : KeyFlat q m) (d : Pager.Dir) (os : List Order) (ho : ∀ o ∈ os, Flatly q 0 o.col)
    (s : Verif.Stmt V) : ∃ s', Pager.orderPart m d os s = .ok s' ∧ Adds q 0 s s' := by
  have lit0 : ∀ x ∈ [" ORDER BY ", "", " ASC", " DESC"], Flatly q 0 x := by
    intro x hx
    simp only [List.mem_cons, List.not_mem_nil, or_false] at hx
    rcases hq with e | e <;> rw [e] <;> rcases hx with e | e | e | e <;> rw [e] <;> exact ⟨rfl, rfl⟩
  have h0 := adds_writeS s (lit0 " ORDER BY " (by simp))
  unfold Pager.orderPart
  cases hg : os.getLast? with
  | none =>
    cases d with
    | next =>
      obtain ⟨s', e, h1⟩ := keyOrder_adds hq m hm (lit0 "" (by simp)) (lit0 " ASC" (by simp)) (s.writeS " ORDER BY ")
      exact ⟨s', e, h0.trans h1⟩
    | prev =>
      obtain ⟨s', e, h1⟩ := keyOrder_adds hq m hm (lit0 " DESC" (by simp)) (lit0 " DESC" (by simp)) (s.writeS " ORDER BY ")
      exact ⟨s', e, h0.trans h1⟩
  | some o =>
    have hd : Flatly q 0 (if o.asc then " ASC" else " DESC") := flatly_if (lit0 _ (by simp)) (lit0 _ (by simp))
    obtain ⟨s', e, h1⟩ := keyOrder_adds hq m hm hd hd (Pager.orderLoop os (s.writeS " ORDER BY "))
    exact ⟨s', e, (h0.trans (orderLoop_adds hq os ho _)).trans h1⟩

omit hq in
/-- The loops over the order columns end unless a value is out of range. -/
theorem nextLoop_ends (st : Style) (val : String → Res V) (sep up down : String) (os : List Order) :
    ∀ (i : Nat) (s : Verif.Stmt V), ((∀ o ∈ os, ∃ v, val o.col = .ok v) → ∃ s', Pager.nextLoop st val sep up down i os s = .ok s') ∧
      ((∀ x, (∃ v, val x = .ok v) ∨ val x = .panic) → (∃ o ∈ os, val o.col = .panic) →
        Pager.nextLoop st val sep up down i os s = .panic) := by
  induction os with
  | nil => intro i s; exact ⟨fun _ => ⟨s, rfl⟩, fun _ h => by simp at h⟩
  | cons o os ih =>
    intro i s
    constructor
    · intro h
      obtain ⟨v, hv⟩ := h o (by simp)
      simp only [Pager.nextLoop, hv, Res.ok_bind]
      exact (ih _ _).1 fun x hx => h x (by simp [hx])
    · intro hx h
      rcases hx o.col with ⟨v, hv⟩ | hv
      · simp only [Pager.nextLoop, hv, Res.ok_bind]
        refine (ih _ _).2 hx ?_
        obtain ⟨p, hp, hpv⟩ := h
        rcases List.mem_cons.1 hp with e | e
        · subst e; rw [hv] at hpv; cases hpv
        · exact ⟨p, e, hpv⟩
      · simp only [Pager.nextLoop, hv]; rfl

omit hq in
theorem prevLoop_ends (st : Style) (val : String → Res V) (os : List Order) :
    ∀ (s : Verif.Stmt V) (buf : Txt), ((∀ o ∈ os, ∃ v, val o.col = .ok v) → ∃ s', Pager.prevLoop st val os s buf = .ok s') ∧
      ((∀ x, (∃ v, val x = .ok v) ∨ val x = .panic) → (∃ o ∈ os, val o.col = .panic) →
        Pager.prevLoop st val os s buf = .panic) := by
  induction os with
  | nil => intro s buf; exact ⟨fun _ => ⟨_, rfl⟩, fun _ h => by simp at h⟩
  | cons o os ih =>
    intro s buf
    constructor
    · intro h
      obtain ⟨v, hv⟩ := h o (by simp)
      simp only [Pager.prevLoop, hv, Res.ok_bind]
      exact (ih _ _).1 fun x hx => h x (by simp [hx])
    · intro hx h
      rcases hx o.col with ⟨v, hv⟩ | hv
      · simp only [Pager.prevLoop, hv, Res.ok_bind]
        refine (ih _ _).2 hx ?_
        obtain ⟨p, hp, hpv⟩ := h
        rcases List.mem_cons.1 hp with e | e
        · subst e; rw [hv] at hpv; cases hpv
        · exact ⟨p, e, hpv⟩
      · simp only [Pager.prevLoop, hv]; rfl

omit hq in
theorem orderCond_ends (st : Style) (m : Mdl R V) (d : Pager.Dir) (os : List Order) (r : R) (s : Verif.Stmt V) :
    ((∀ o ∈ os, ∃ v, Pager.cursorVal m r o.col = .ok v) → ∃ s', Pager.orderCond st m d os r s = .ok s') ∧
    ((∃ o ∈ os, Pager.cursorVal m r o.col = .panic) → Pager.orderCond st m d os r s = .panic) := by
  have hx : ∀ x, (∃ v, Pager.cursorVal m r x = .ok v) ∨ Pager.cursorVal m r x = .panic := by
    intro x
    unfold Pager.cursorVal getIdx
    cases (m.values r)[Pager.colIdx m.columns x]? with
    | some v => exact .inl ⟨v, rfl⟩
    | none => exact .inr rfl
  cases os with
  | nil => exact ⟨fun _ => ⟨s, rfl⟩, fun h => by simp at h⟩
  | cons o os =>
    cases d with
    | next =>
      constructor
      · intro h
        obtain ⟨s1, h1⟩ := (nextLoop_ends st (Pager.cursorVal m r) " AND " " >= " " <= " (o :: os) 0 s).1 h
        obtain ⟨s2, h2⟩ := (nextLoop_ends st (Pager.cursorVal m r) " OR " " > " " < " (o :: os) 0 (s1.writeS " AND (")).1 h
        exact ⟨s2.writeS " OR ", by simp only [Pager.orderCond, h1, Res.ok_bind, h2]⟩
      · intro h
        simp only [Pager.orderCond, (nextLoop_ends st (Pager.cursorVal m r) " AND " " >= " " <= " (o :: os) 0 s).2 hx h]
        rfl
    | prev =>
      constructor
      · intro h
        obtain ⟨⟨s1, b⟩, h1⟩ := (prevLoop_ends st (Pager.cursorVal m r) (o :: os) s []).1 h
        exact ⟨s1.write (tx "(" ++ b), by simp only [Pager.orderCond, h1, Res.ok_bind]⟩
      · intro h
        simp only [Pager.orderCond, (prevLoop_ends st (Pager.cursorVal m r) (o :: os) s []).2 hx h]
        rfl

end loops

/-! ## Columns and values -/

theorem colIdxFrom_notin (cols : List String) (x : String) (hx : x ∉ cols) (f i : Nat) : Pager.colIdxFrom f i cols x = f := by
  induction cols generalizing f i with
  | nil => rfl
  | cons c cols ih =>
    simp only [List.mem_cons, not_or] at hx
    rw [Pager.colIdxFrom, if_neg (Ne.symm hx.1), ih hx.2]

theorem colIdxFrom_nodup (cols : List String) (hn : cols.Nodup) (j : Nat) (x : String) (hj : cols[j]? = some x) (f i : Nat) :
    Pager.colIdxFrom f i cols x = i + j := by
  induction cols generalizing f i j with
  | nil => simp at hj
  | cons c cols ih =>
    rw [List.nodup_cons] at hn
    rw [Pager.colIdxFrom]
    cases j with
    | zero =>
      simp only [List.getElem?_cons_zero, Option.some.injEq] at hj
      subst hj
      rw [if_pos rfl, colIdxFrom_notin _ _ hn.1]
      rfl
    | succ j =>
      simp only [List.getElem?_cons_succ] at hj
      rw [ih hn.2 j hj]
      omega

theorem nameTxt_inj {D : Spec.Sql.Dialect} {x : String} {n n' : Name} (h : NameTxt D x n) (h' : NameTxt D x n') : n = n' := by
  have h1 := (tokOf_lexes (V := Unit) h).lex
  rw [(tokOf_lexes (V := Unit) h').lex] at h1
  simp only [Option.some.injEq, List.cons.injEq, and_true] at h1
  have h2 := tokOf_name (V := Unit) h []
  rw [← h1, tokOf_name h' []] at h2
  simpa using h2.symm

section
variable {F X V : Type} [DecidableEq F] [DecidableEq X] [DecidableEq V] {E : Env F X V} {t : Table F} {Ok : F → X → Prop}
variable (h : Setup E t Ok) (hn : Spelled E.g E.D t)
include h

omit h in
/-- One value for each column that is inserted. -/
theorem values_length : (genValues t).length = (insertPos t).length := by
  unfold genValues
  rw [List.length_map, insertColumns_eq]
  unfold pick
  have : ∀ l : List Nat, (∀ i ∈ l, i < t.columns.length) → (l.filterMap fun i => t.columns[i]?).length = l.length := by
    intro l
    induction l with
    | nil => intro _; rfl
    | cons i l ih =>
      intro hl
      rw [List.filterMap_cons, List.getElem?_eq_getElem (hl i (by simp))]
      simp [ih fun j hj => hl j (by simp [hj])]
  refine this _ fun i hi => ?_
  unfold insertPos at hi
  simpa using (List.mem_filter.1 hi).1

include hn

theorem idents_nodup : (E.g.genColumns t).Nodup := by
  unfold Cfg.genColumns
  refine List.Nodup.map_on ?_ (List.Nodup.of_map _ h.names)
  intro a ha b hb e
  have h1 := column_reads h hn ha
  rw [e] at h1
  have := nameTxt_inj h1 (column_reads h hn hb)
  exact List.inj_on_of_nodup_map h.names ha hb this

/-- The value that is taken for an order column: that at its position among the columns. -/
theorem cursorVal_at {j : Nat} {c : GCol F} (hj : t.columns[j]? = some c) (v : F → V) :
    Pager.cursorVal (pmdl E t) v (E.g.ident c.name) = getIdx ((genValues t).map v) j := by
  unfold Pager.cursorVal Pager.colIdx
  have e : (pmdl E t).columns = E.g.genColumns t := rfl
  have e2 : (pmdl E t).values v = (genValues t).map v := rfl
  rw [e, e2, colIdxFrom_nodup _ (idents_nodup h hn) j _ ?_ 0 0, Nat.zero_add]
  unfold Cfg.genColumns
  rw [List.getElem?_map, hj]
  rfl

/-- It is out of range just for columns beyond as many as are inserted. -/
theorem cursorVal_panics {j : Nat} {c : GCol F} (hj : t.columns[j]? = some c) (v : F → V) :
    ((insertPos t).length ≤ j → Pager.cursorVal (pmdl E t) v (E.g.ident c.name) = .panic) ∧
    (j < (insertPos t).length → ∃ x, Pager.cursorVal (pmdl E t) v (E.g.ident c.name) = .ok x) := by
  rw [cursorVal_at h hn hj]
  have hl := values_length (t := t)
  unfold getIdx
  rw [List.getElem?_map]
  constructor
  · intro hp
    rw [List.getElem?_eq_none (by rw [hl]; exact hp)]
    rfl
  · intro hp
    rw [List.getElem?_eq_getElem (by rw [hl]; exact hp)]
    exact ⟨_, rfl⟩

theorem page_keyFlat : KeyFlat E.D.quote (pmdl E t) := by
  have hq := h.named.quote
  have hname : ∀ c ∈ pick t (keyPos t), Flatly E.D.quote 0 (keyTxt E.g t c) :=
    fun c hc => flatly_name hq hq (keyTxt_reads h.named h.bare c hc)
  have hk := keyCols_ne' h
  unfold keyCols at hk
  unfold KeyFlat
  cases ha : t.auto with
  | some i =>
    have hi := h.wf.auto i ha
    have e : pick t (keyPos t) = [t.columns[i]] := by simp [pick, keyPos, ha, List.getElem?_eq_getElem hi]
    have hcol : t.autoCol = some t.columns[i] := by simp [Table.autoCol, ha, List.getElem?_eq_getElem hi]
    have e2 : keyTxt E.g t = fun c => E.g.ident c.name := by funext c; simp [keyTxt, e]
    have := hname t.columns[i] (by simp [e])
    rw [e2] at this
    simpa [ofTable, hcol, Cfg.genPK] using this
  | none =>
    have hcol : t.autoCol = none := by simp [Table.autoCol, ha]
    have hkc : pick t (keyPos t) = t.keyCols := by simp [keyPos, ha, pick, Table.keyCols]
    have e2 : keyTxt E.g t = fun c => if t.keyCols.length = 1 then E.g.ident c.name else c.name := by
      funext c; simp [keyTxt, hkc]
    rw [e2, hkc] at hname
    rw [hkc] at hk
    match e : t.keyCols, hk with
    | [c], _ =>
      have := hname c (by simp [e])
      simpa [ofTable, hcol, Cfg.genPK, e] using this
    | a :: b :: l, _ =>
      have h1 := hname a (by simp [e])
      have h2 := hname b (by simp [e])
      have h3 : ∀ x ∈ l, Flatly E.D.quote 0 x.name := fun x hx => by
        have := hname x (by simp [e, hx])
        simpa [e] using this
      simp [e] at h1 h2
      simp only [ofTable, hcol, Cfg.genPK, genCompositeKey, e]
      refine ⟨?_, by simp⟩
      intro n hn'
      simp only [List.map_cons, List.mem_cons, List.mem_map] at hn'
      rcases hn' with rfl | rfl | ⟨x, hx, rfl⟩
      · exact h1
      · exact h2
      · exact h3 x hx

omit hn in
theorem page_sql : (pmdl E t).sqlColumns = t.columns.map fun c => E.g.ident c.name := by
  have := info_sql h
  simp only [info] at this
  unfold pmdl ofTable
  simp only
  cases hg : E.g.genSqlColumns t with
  | some l => simp [hg] at this
  | none => rfl

/-- With order columns the query panics or is refused. -/
theorem round_order {br : Brand} {K : Compare V} {w : Option (Cond F X)} (hw : ProperWhere Ok t w) {os : List (GCol F × Bool)} (hne : os ≠ [])
    (hos : ∀ p ∈ os, p.1 ∈ t.columns) (d : Pager.Dir) {p : Pager.PStmt V} (hp : p.where_ = w.map (clause E))
    (ho : p.orderBy = os.map (ordering E)) (cur : Bool) (v : F → V) (zero : F → X) :
    (Overrun t os → Pager.pageQuery E.g.style (pmdl E t) d p cur v = .panic) ∧
    (¬ Overrun t os → ∃ s, Pager.pageQuery E.g.style (pmdl E t) d p cur v = .ok s ∧
      ∀ σ, pageRows E br K t zero s σ = .failed) := by
  have hq := h.named.quote
  have hin : ∀ c', p.where_ = some c' → E.g.style = .numbered ∨ inNonempty c' = true := by
    intro c' hc'
    rw [hp] at hc'
    cases hw' : w with
    | none => rw [hw'] at hc'; cases hc'
    | some c =>
      rw [hw'] at hc'
      cases hc'
      exact .inr (inNonempty_clause c (hw c hw'))
  obtain ⟨s1, e1, a1⟩ := Pager.whereCond_aligned p.where_ hin (Pager.head_aligned E.g.style (pmdl E t))
  have hof : ∀ o ∈ p.orderBy, Flatly E.D.quote 0 o.col := by
    intro o ho'
    rw [ho] at ho'
    obtain ⟨q, hq', rfl⟩ := List.mem_map.1 ho'
    exact flatly_name hq hq (column_reads h hn (hos q hq'))
  have hor := orderCond_ends E.g.style (pmdl E t) d p.orderBy v s1
  constructor
  · rintro ⟨q, hq', j, hj, hl⟩
    have hv := (cursorVal_panics h hn hj v).1 hl
    have := hor.2 ⟨ordering E q, by rw [ho]; exact List.mem_map_of_mem hq', hv⟩
    simp only [Pager.pageQuery, e1, Res.ok_bind, this]
    rfl
  · intro hov
    obtain ⟨s2, e2⟩ := hor.1 (by
      intro o ho'
      rw [ho] at ho'
      obtain ⟨q, hq', rfl⟩ := List.mem_map.1 ho'
      obtain ⟨j, hj⟩ := List.getElem?_of_mem (hos q hq')
      exact (cursorVal_panics h hn hj v).2 (Nat.lt_of_not_le fun hh => hov ⟨q, hq', j, hj, hh⟩))
    have a2 := orderCond_adds hq E.g.style (pmdl E t) d p.orderBy (by rw [ho]; simpa using hne) hof v s1 s2 e2
    obtain ⟨s3, e3, a3⟩ := cursorCond_adds hq E.g.style (pmdl E t) (page_keyFlat h hn) d cur v s2
    obtain ⟨s4, e4, a4⟩ := orderPart_adds hq (pmdl E t) (page_keyFlat h hn) d p.orderBy hof s3
    have a5 : Adds E.D.quote 0 s4 (s4.writeS (" LIMIT " ++ toString (p.limit + 1).toNat ++ ";")) := by
      apply adds_writeS
      have l1 : Flatly E.D.quote 0 " LIMIT " := by rcases hq with e | e <;> rw [e] <;> exact ⟨rfl, rfl⟩
      have l2 : Flatly E.D.quote 0 ";" := by rcases hq with e | e <;> rw [e] <;> exact ⟨rfl, rfl⟩
      have l3 : Flatly E.D.quote 0 (toString (p.limit + 1).toNat) :=
        Lexes.weighs (V := Unit) hq (lexes_wordy (digits_word E.D hq _))
      exact (l1.append l3).append l2
    refine ⟨s4.writeS (" LIMIT " ++ toString (p.limit + 1).toNat ++ ";"), by
      simp only [Pager.pageQuery, e1, Res.ok_bind, e2, e3, e4], fun σ => ?_⟩
    have hw1 : Weighs E.D.quote 0 (shape s1.text) := by
      have hb : Spec.bind E.g.style s1.text s1.args = some _ := a1.1
      rw [← bind_shape hb, weighs_blank, ← weighs_blank, List.map_append]
      have hh : Weighs E.D.quote 0 (headB (pmdl E t) : List (BSym V)) := by
        have h1 : Flatly E.D.quote 0 ("SELECT " ++ joinStr "," (pmdl E t).sqlColumns ++ " FROM " ++ (pmdl E t).table ++ " WHERE ") := by
          have l1 : Flatly E.D.quote 0 "SELECT " := by rcases hq with e | e <;> rw [e] <;> exact ⟨rfl, rfl⟩
          have l2 : Flatly E.D.quote 0 " FROM " := by rcases hq with e | e <;> rw [e] <;> exact ⟨rfl, rfl⟩
          have l3 : Flatly E.D.quote 0 " WHERE " := by rcases hq with e | e <;> rw [e] <;> exact ⟨rfl, rfl⟩
          refine (((l1.append (flatly_join hq _ ?_)).append l2).append (flatly_name hq hq (table_tok h))).append l3
          intro x hx
          rw [page_sql h] at hx
          obtain ⟨c, hc, rfl⟩ := List.mem_map.1 hx
          exact flatly_name hq hq (column_reads h hn hc)
        have e : (bs ("SELECT " ++ joinStr "," (pmdl E t).sqlColumns ++ " FROM " ++ (pmdl E t).table ++ " WHERE ") : List (BSym V)) =
            headB (pmdl E t) := by
          simp [headB, bs_joinStr, commaStrs, namesB, comma]
        rw [← e, ← weighs_blank, ← shape_tx_blank]
        exact h1.tx
      have hf : Weighs E.D.quote 0 (filterB p.where_) := by
        rw [hp]
        cases hw' : w with
        | none => exact weighs_nil _
        | some c =>
          have := Lexes.weighs hq (lexes_cond h hn c (hw c hw'))
          have h0 := tdep_expr (expr_cond h hn c (hw c hw') [] ⟨rfl, rfl⟩)
          simp only [List.append_nil] at h0
          rw [h0] at this
          exact this
      exact (weighs_blank.2 hh).append (weighs_blank.2 hf)
    obtain ⟨x, ex, wx⟩ := (((a2.trans a3).trans a4).trans a5)
    have hfin : Weighs E.D.quote 1 (shape (s4.writeS (" LIMIT " ++ toString (p.limit + 1).toNat ++ ";")).text) := by
      rw [ex, shape_append]
      exact Weighs.append (k := 0) (l := 1) hw1 wx
    unfold pageRows
    cases hb : Spec.bind E.g.style (s4.writeS (" LIMIT " ++ toString (p.limit + 1).toNat ++ ";")).text
        (s4.writeS (" LIMIT " ++ toString (p.limit + 1).toNat ++ ";")).args with
    | none => rfl
    | some b =>
      rw [← bind_shape hb, weighs_blank] at hfin
      have hr : readPage br E.D b = none := by
        unfold readPage
        cases hl : Spec.Sql.lex E.D.quote .idle b with
        | none => rfl
        | some ts =>
          cases hs : page? br E.D ts with
          | none => simpa using hs
          | some z =>
            have h1 := tdep_page hs
            have h2 := (lex_dep hq .idle b ts hl).1
            have h3 := hfin.2
            simp only [inside] at h2
            omega
      rw [Option.bind_some, hr]
      rfl

end

end Verif.Store

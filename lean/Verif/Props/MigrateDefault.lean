import Verif.Props.MigrateText
import Verif.Lemmas.Numeral
import Verif.Lemmas.FloatRead

/-!
# C106: defaults, keys, and MySQL
-/

namespace Verif.Props

open Verif Verif.Migrate Verif.Spec.Ddl

variable {S : Server} {q md5 : Bytes → Bytes} {table : Bytes} {pks : List Bytes}

/-! ## Defaults that are texts -/

/-- Bytes read since the text began, at least. -/
private def weight : At → Option Nat
  | .text s => some s.length
  | .textEnd s => some (s.length + 1)
  | .textEsc s => some (s.length + 1)
  | _ => none

/-- The first text that is found is no longer than what was read. -/
private theorem weight_le {t : Bytes} {a : At} {w : Nat} (ha : weight a = some w) {ps ys : List Sym} {y : Bytes}
    (hf : finish (scan S a t).2 = some ps) (e : (scan S a t).1 ++ ps = .text y :: ys) : y.length + 1 ≤ w + t.length := by
  induction t generalizing a w with
  | nil =>
    cases a <;> simp only [weight, Option.some.injEq, reduceCtorEq] at ha <;> subst ha <;> simp only [scan, finish, Option.some.injEq, reduceCtorEq] at hf
    subst hf
    simp only [scan, List.nil_append, List.cons.injEq, Sym.text.injEq] at e
    simp [e.1]
  | cons b t ih =>
    cases a <;> simp only [weight, Option.some.injEq, reduceCtorEq] at ha <;> subst ha <;> simp only [scan, next] at hf e
    · split at hf
      · rename_i hb
        rw [if_pos hb] at e
        have := ih (a := .textEnd _) rfl hf (by simpa using e)
        simp at this ⊢; omega
      · rename_i hb
        rw [if_neg hb] at e
        split at hf
        · rename_i hb
          rw [if_pos hb] at e
          have := ih (a := .textEsc _) rfl hf (by simpa using e)
          simp at this ⊢; omega
        · rename_i hb
          rw [if_neg hb] at e
          have := ih (a := .text _) rfl hf (by simpa using e)
          simp at this ⊢; omega
    · split at hf
      · rename_i hb
        rw [if_pos hb] at e
        have := ih (a := .text _) rfl hf (by simpa using e)
        simp at this ⊢; omega
      · rename_i hb
        rw [if_neg hb] at e
        simp only [after, List.cons_append, List.cons.injEq, Sym.text.injEq] at e
        simp [← e.1]
    · have := ih (a := .text _) rfl hf (by simpa using e)
      simp at this ⊢; omega

private theorem clean_of {s acc : Bytes} {ps : List Sym} (hf : finish (scan S (.text acc) (s ++ [39])).2 = some ps)
    (e : (scan S (.text acc) (s ++ [39])).1 ++ ps = [.text (acc ++ s)]) : 39 ∉ s ∧ (S.escapes = true → 92 ∉ s) := by
  induction s generalizing acc with
  | nil => simp
  | cons b r ih =>
    by_cases hb : b = 39
    · exfalso
      subst hb
      simp only [List.cons_append, scan, next, if_pos] at hf e
      cases hr : r ++ [39] with
      | nil => simp at hr
      | cons h t =>
        have hlen : t.length = r.length := by
          have := congrArg List.length hr
          simp at this; omega
        rw [hr] at hf e
        simp only [scan, next] at hf e
        split at hf
        · rename_i hh
          rw [if_pos hh] at e
          have := weight_le (a := .text (acc ++ [h])) rfl hf (by simpa using e)
          simp at this; omega
        · rename_i hh
          rw [if_neg hh] at e
          simp only [after, List.cons_append, List.nil_append, List.cons.injEq, Sym.text.injEq] at e
          have := congrArg List.length e.1
          simp at this
    · by_cases hesc : S.escapes = true ∧ b = 92
      · exfalso
        simp only [List.cons_append, scan, next, if_neg hb, if_pos hesc] at hf e
        cases hr : r ++ [39] with
        | nil => simp at hr
        | cons h t =>
          have hlen : t.length = r.length := by
            have := congrArg List.length hr
            simp at this; omega
          rw [hr] at hf e
          simp only [scan, next] at hf e
          have := weight_le (a := .text (acc ++ [h])) rfl hf (by simpa using e)
          simp at this; omega
      · simp only [List.cons_append, scan, next, if_neg hb, if_neg hesc] at hf e
        obtain ⟨h1, h2⟩ := ih hf (by simpa using e)
        refine ⟨by simp [h1, Ne.symm hb], fun he => ?_⟩
        have : b ≠ 92 := fun hb => hesc ⟨he, hb⟩
        simp [h2 he, Ne.symm this]

private theorem scan_clean {s : Bytes} (acc : Bytes) (h : 39 ∉ s ∧ (S.escapes = true → 92 ∉ s)) :
    scan S (.text acc) (s ++ [39]) = ([], .textEnd (acc ++ s)) := by
  induction s generalizing acc with
  | nil => simp [scan, next]
  | cons b s ih =>
    simp only [List.mem_cons, not_or] at h
    have h2 : ¬ (S.escapes = true ∧ b = 92) := fun hh => (h.2 hh.1).1 hh.2.symm
    simp only [List.cons_append, scan, next, if_neg (Ne.symm h.1.1), if_neg h2]
    rw [ih _ ⟨h.1.2, fun he => (h.2 he).2⟩]
    simp

/-- C106: a default that is a text is written so that it is read as that text exactly if it has no quote, and on MySQL no backslash. -/
theorem C106_text_default_iff (hS : Sound S) (s : Bytes) :
    ∃ t, format (.str s) = .ok t ∧ (symbols S t = some [.text s] ↔ 39 ∉ s ∧ (S.escapes = true → 92 ∉ s)) := by
  refine ⟨_, rfl, ?_⟩
  have hs : start S 39 = ([], .text []) := by
    rcases hS.quote with e | e <;> simp [start, isSpace, isMark, e]
  unfold symbols
  simp only [scan, next, hs, List.nil_append]
  constructor
  · intro h
    obtain ⟨ps, h1, h2⟩ := Option.map_eq_some_iff.1 h
    exact clean_of h1 (by simpa using h2)
  · intro h
    rw [scan_clean [] h]
    rfl

/-- C106: defaults that are numbers or truth values are always read as such, -/
theorem C106_plain_default (hS : Sound S) :
    (∀ n, ∃ t, format (.int n) = .ok t ∧ symbols S t = some [.word (intDec n)]) ∧
      ∀ b, ∃ t, format (.bool b) = .ok t ∧ symbols S t = some [kw (if b then "true" else "false")] := by
  constructor
  · intro n
    refine ⟨_, rfl, ?_⟩
    have hd : ∀ m, (natDec m).all inWord = true ∧ natDec m ≠ [] := by
      intro m
      have h1 := Verif.Float.natDec_all m
      constructor
      · rw [List.all_eq_true] at h1 ⊢
        intro b hb
        have hall : ∀ b : Byte, Verif.Float.isDigit b = true → inWord b = true := by
          intro b hb
          have hne : ∀ c : Byte, Verif.Float.isDigit c = false → b ≠ c := by
            rintro c hc rfl
            simp [hc] at hb
          simp [inWord, isSpace, isMark, hne 32 (by decide), hne 9 (by decide), hne 10 (by decide), hne 13 (by decide), hne 40 (by decide),
            hne 41 (by decide), hne 44 (by decide), hne 59 (by decide), hne 34 (by decide), hne 39 (by decide), hne 96 (by decide), hne 45 (by decide)]
        exact hall b (h1 b hb)
      · intro e
        have := Verif.Float.numeral_iff.1 (natDec_numeral m)
        exact this.1 e
    unfold intDec
    split
    · obtain ⟨h1, h2⟩ := hd n.natAbs
      cases e : natDec n.natAbs with
      | nil => exact absurd e h2
      | cons b w =>
        rw [e] at h1
        simp only [List.all_cons, Bool.and_eq_true] at h1
        have hs : start S 45 = ([], .dash) := by
          rcases hS.quote with e | e <;> simp [start, isSpace, isMark, e]
        have hb : b ≠ 45 := by
          rintro rfl
          exact absurd h1.1 (by decide)
        unfold symbols
        simp [scan, next, hs, hb, h1.1, scan_word _ w h1.2, finish]
    · exact symbols_toks (toks_word hS (hd _).1 (hd _).2)
  · rintro (_ | _)
    · exact ⟨_, rfl, symbols_toks (toks_kw hS _ (by decide +kernel))⟩
    · exact ⟨_, rfl, symbols_toks (toks_kw hS _ (by decide +kernel))⟩

/-- C106: but a default that is bytes panics, although it may be one (dialect.go:95-97). -/
theorem C106_bytes_default (b : Bytes) : format (.bytes b) = .panic := rfl

/-! ## Keys -/

/-- C106: the name of a key comes from its columns alone, so that in a schema of PostgreSQL the second table with such a key is always
refused. -/
theorem C106_same_key_refused {t₁ t₂ : Bytes} {c₁ c₂ : List Col} (hp : pks ≠ []) {rels rels' : List Bytes} (h₁ : t₁ ∉ rels)
    (h : createIn rels (.create t₁ c₁ (if pks = [] then none else some (keyName md5 pks, pks))) = some rels') (h₂ : t₂ ∉ rels') :
    createIn rels' (.create t₂ c₂ (if pks = [] then none else some (keyName md5 pks, pks))) = none := by
  rw [if_neg hp] at h ⊢
  simp only [createIn, if_neg h₁] at h
  split at h
  · cases h
  · simp only [Option.some.injEq] at h
    subst h
    simp only [createIn]
    rw [if_neg h₂, if_pos (.inr (by simp))]

/-- C106: so it is for the scripts themselves: two tables with columns of their own, the same key, and a schema in which the first has
been created. -/
theorem C106_second_script_refused (hS : Sound S) {t₁ t₂ : Bytes} {s₁ s₂ : Script} (hp : pks ≠ [])
    (n₁ : ∀ n ∈ scriptNames md5 t₁ pks s₁, NameOk S q n) (n₂ : ∀ n ∈ scriptNames md5 t₂ pks s₂, NameOk S q n)
    (e₁ : s₁.create ≠ []) (e₂ : s₂.create ≠ []) {c₁ c₂ : List Col}
    (hc₁ : List.Forall₂ (fun m c => ColOf S m.name m.type (!m.nullable) m.dflt c) s₁.create c₁)
    (hc₂ : List.Forall₂ (fun m c => ColOf S m.name m.type (!m.nullable) m.dflt c) s₂.create c₂)
    {u₁ d₁ u₂ d₂ : List Clause} (hu₁ : List.Forall₂ (Says S) s₁.up u₁) (hd₁ : List.Forall₂ (Says S) s₁.down d₁)
    (hu₂ : List.Forall₂ (Says S) s₂.up u₂) (hd₂ : List.Forall₂ (Says S) s₂.down d₂)
    (l₁ : S.lax = true ∨ (s₁.up ≠ [] ∧ s₁.down ≠ [])) (l₂ : S.lax = true ∨ (s₂.up ≠ [] ∧ s₂.down ≠ [])) :
    ∃ x₁ x₂ r₁ r₂ b₁ b₂, script S (scriptText q md5 t₁ pks s₁) = some (some (x₁ :: r₁), b₁) ∧
      script S (scriptText q md5 t₂ pks s₂) = some (some (x₂ :: r₂), b₂) ∧
      ∀ rels rels', t₁ ∉ rels → createIn rels x₁ = some rels' → t₂ ∉ rels' → createIn rels' x₂ = none :=
  ⟨_, _, _, _, _, _, C106_reads_partial hS n₁ e₁ hc₁ hu₁ hd₁ l₁, C106_reads_partial hS n₂ e₂ hc₂ hu₂ hd₂ l₂,
    fun _ _ h₁ h h₂ => C106_same_key_refused hp h₁ h h₂⟩

/-! ## MySQL -/

/-- C106: on MySQL, a migration of a table that exists drops all its columns, and there is no way back. -/
theorem C106_mysql_no_way_back (hS : Sound S) {ms : List GoCol} {ex : List DbCol} (hne : ms ≠ []) (hex : ex ≠ [])
    (hn : ∀ n ∈ table :: keyName md5 pks :: (pks ++ (ms.map (·.name) ++ ex.map (·.name))), NameOk S q n)
    {cols : List Col} (hc : List.Forall₂ (fun m c => ColOf S m.name m.type (!m.nullable) m.dflt c) ms cols)
    (hd : ∀ c ∈ ex, ∀ x, c.dflt = some x → ∃ d, symbols S x = some d ∧ Whole false d) :
    script S (scriptText q md5 table pks (mysqlMigrate ms ex)) =
      some (some [.create table cols (if pks = [] then none else some (keyName md5 pks, pks)), .alter table (ex.map fun c => .drop c.name)], none) := by
  have e : mysqlMigrate ms ex = ⟨ms, ex.map fun c => .drop c.name, ex.map fun c => .add c.name none (!c.nullable) c.dflt⟩ := by
    simp [mysqlMigrate, upActions, downActions]
  rw [e]
  obtain ⟨c, hc'⟩ := List.exists_mem_of_ne_nil _ hex
  refine C106_no_way_back hS ?_ hne hc ?_ (by simpa using hex) ?_ ⟨c.name, !c.nullable, c.dflt, List.mem_map.2 ⟨c, hc', rfl⟩⟩
  · intro n h
    refine hn n ?_
    simp only [scriptNames, List.map_map, List.mem_cons, List.mem_append, List.mem_map, Function.comp] at h
    simp only [List.mem_cons, List.mem_append, List.mem_map]
    rcases h with h | h | h | h | ⟨a, ha, rfl⟩ | ⟨a, ha, rfl⟩
    · exact .inl h
    · exact .inr (.inl h)
    · exact .inr (.inr (.inl h))
    · exact .inr (.inr (.inr (.inl h)))
    · exact .inr (.inr (.inr (.inr ⟨a, ha, rfl⟩)))
    · exact .inr (.inr (.inr (.inr ⟨a, ha, rfl⟩)))
  · clear hc' hd hn hex e
    induction ex with
    | nil => exact .nil
    | cons c ex ih => exact .cons rfl ih
  · intro a ha
    obtain ⟨c, hc, rfl⟩ := List.mem_map.1 ha
    exact .inr ⟨_, _, _, rfl, hd c hc⟩

/-- C106: a table that does not exist is created; MySQL takes the two empty `ALTER TABLE`s, -/
theorem C106_mysql_new_partial (hS : Sound S) (hl : S.lax = true) {ms : List GoCol} (hne : ms ≠ [])
    (hn : ∀ n ∈ table :: keyName md5 pks :: (pks ++ ms.map (·.name)), NameOk S q n)
    {cols : List Col} (hc : List.Forall₂ (fun m c => ColOf S m.name m.type (!m.nullable) m.dflt c) ms cols) :
    script S (scriptText q md5 table pks (mysqlMigrate ms [])) =
      some (some [.create table cols (if pks = [] then none else some (keyName md5 pks, pks)), .alter table []], some [.alter table []]) := by
  refine C106_reads_partial hS (s := mysqlMigrate ms []) ?_ hne hc .nil .nil (.inl hl)
  intro n h
  refine hn n ?_
  simpa [scriptNames, mysqlMigrate, upActions, downActions] using h

end Verif.Props

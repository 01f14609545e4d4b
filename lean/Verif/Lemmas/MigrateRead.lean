import Verif.Lemmas.MigrateText
import Verif.Props.Migrate
import Mathlib.Data.List.Forall2

/-! # Reading the statements of a migration -/

namespace Verif.Spec.Ddl

open Verif Verif.Migrate

variable {S : Server} {q : Bytes → Bytes}

/-- Parts with commas between them. -/
def joinS : List (List Sym) → List Sym
  | [] => []
  | [p] => p
  | p :: p' :: ps => p ++ .mark 44 :: joinS (p' :: ps)

theorem split_join {ps : List (List Sym)} (h : ∀ p ∈ ps, Whole false p) (hne : ps ≠ []) : split 44 0 (joinS ps) = ps := by
  induction ps with
  | nil => exact absurd rfl hne
  | cons p ps ih =>
    cases ps with
    | nil => exact split_last (.inl rfl) (h p (by simp)) (by simp)
    | cons p' ps =>
      rw [joinS, split_at (.inl rfl) (h p (by simp)) (by simp), ih (fun x hx => h x (by simp [List.mem_cons.1 hx])) (by simp)]

theorem whole_join {ps : List (List Sym)} (h : ∀ p ∈ ps, Whole false p) : Whole true (joinS ps) := by
  induction ps with
  | nil => exact .nil
  | cons p ps ih =>
    cases ps with
    | nil => exact whole_deep (h p (by simp))
    | cons p' ps => exact whole_append (whole_deep (h p (by simp))) (.comma (ih fun x hx => h x (by simp [List.mem_cons.1 hx])))

theorem joinS_append {ps : List (List Sym)} (hne : ps ≠ []) (k : List Sym) : joinS (ps ++ [k]) = joinS ps ++ .mark 44 :: k := by
  induction ps with
  | nil => exact absurd rfl hne
  | cons p ps ih =>
    cases ps with
    | nil => rfl
    | cons p' ps =>
      have := ih (by simp)
      simp only [List.cons_append, joinS, List.append_assoc] at this ⊢
      rw [this]

theorem word_mark (s : String) : ∀ b, kw s ≠ .mark b := by intro b h; cases h

theorem whole_kw {deep : Bool} (s : String) {ss : List Sym} (h : Whole deep ss) : Whole deep (kw s :: ss) := .sym (word_mark s) rfl h
theorem whole_name {deep : Bool} (n : Bytes) {ss : List Sym} (h : Whole deep ss) : Whole deep (.name n :: ss) := .sym (by simp) rfl h

theorem whole_ext {notNull : Bool} {v : Option (List Sym)} (h : ∀ x, v = some x → Whole false x) : Whole false (ext notNull v) := by
  cases notNull <;> cases v with
  | none => simp only [ext]; first | exact .nil | exact whole_kw _ (whole_kw _ .nil)
  | some v =>
    simp only [ext]
    first
    | exact whole_kw _ (h v rfl)
    | exact whole_kw _ (whole_kw _ (whole_kw _ (h v rfl)))

section
variable (hS : Sound S)
include hS

/-- What is written after a type. -/
theorem toks_ext {t : Bytes} {ss : List Sym} (h : Toks S t ss) {notNull : Bool} {v : Option Bytes} {v' : Option (List Sym)}
    (hv : (v = none ∧ v' = none) ∨ ∃ x y, v = some x ∧ v' = some y ∧ Toks S x y) :
    Toks S (t ++ ((if notNull then lit " NOT NULL" else []) ++ (match v with | some v => lit " DEFAULT " ++ v | none => [])))
      (ss ++ ext notNull v') := by
  have e7 : lit " NOT NULL" = 32 :: (lit "NOT" ++ 32 :: lit "NULL") := by decide +kernel
  have e8 : lit " DEFAULT " = 32 :: (lit "DEFAULT" ++ [32]) := by decide +kernel
  have hnot := toks_kw hS "NOT" (by decide +kernel)
  have hnull := toks_kw hS "NULL" (by decide +kernel)
  have hdef := toks_kw hS "DEFAULT" (by decide +kernel)
  have sp : isSpace 32 = true := rfl
  have step : Toks S (t ++ (if notNull then lit " NOT NULL" else [])) (ss ++ (if notNull then [kw "NOT", kw "NULL"] else [])) := by
    cases notNull with
    | false => simpa using h
    | true =>
      simp only [if_true]
      rw [e7]
      exact toks_space hS h (toks_space hS hnot hnull sp) sp
  unfold ext
  rw [← List.append_assoc, ← List.append_assoc]
  rcases hv with ⟨rfl, rfl⟩ | ⟨x, y, rfl, rfl, hxy⟩
  · simpa using step
  · simp only
    rw [e8]
    have := toks_space hS step (toks_space hS hdef hxy sp) sp
    simpa using this

/-- A column. -/
theorem toks_col {n t : Bytes} (hn : NameOk S q n) {notNull : Bool} {v : Option Bytes} {c : Col} (h : ColOf S n t notNull v c) :
    ∃ ss, Toks S (q n ++ 32 :: (t ++ ((if notNull then lit " NOT NULL" else []) ++ (match v with | some v => lit " DEFAULT " ++ v | none => []))))
      (.name n :: ss) ∧ Whole false ss ∧ column S n ss = some c := by
  obtain ⟨nn, d₀, ⟨ss, h1, h2, h3⟩, e1, e2, h4⟩ := h
  have ht : Toks S t ss := toks_symbols h1 (whole_comment h2)
  obtain ⟨cn, ct, cb, cd⟩ := c
  simp only at e1 e2 h3 h4
  subst e1 e2
  cases v with
  | none =>
    simp only [DefaultOf] at h4
    subst h4
    exact ⟨ss ++ ext notNull none, by simpa using toks_space hS (toks_name hS hn) (toks_ext hS ht (.inl ⟨rfl, rfl⟩)) rfl,
      whole_append h2 (whole_ext (by simp)), column_ext h3 (by simp) (by simp)⟩
  | some v =>
    obtain ⟨ys, ⟨g1, g2, g3, g4⟩, rfl, g5⟩ := h4
    have hy : Toks S v ys := toks_symbols g1 (whole_comment g3)
    refine ⟨ss ++ ext notNull (some ys), ?_, whole_append h2 (whole_ext (by simpa using g3)), ?_⟩
    · simpa using toks_space hS (toks_name hS hn) (toks_ext hS (v := some v) ht (.inr ⟨v, ys, rfl, rfl, hy⟩)) rfl
    · exact column_ext h3 (by simpa using ⟨g2, g4⟩) (by simpa using g5)

/-- The columns of `CREATE TABLE`. -/
theorem toks_columns {ms : List GoCol} {cs : List Col} (hn : ∀ m ∈ ms, NameOk S q m.name)
    (h : List.Forall₂ (fun m c => ColOf S m.name m.type (!m.nullable) m.dflt c) ms cs) :
    ∃ ps, List.Forall₂ (fun m p => ∃ ss, p = .name m.name :: ss ∧ Whole false p ∧ (column S m.name ss).isSome) ms ps ∧
      (∀ es r, elements S es = some r → elements S (ps ++ es) = some (cs ++ r.1, r.2)) ∧ Toks S (columnsText q ms) (joinS ps) := by
  induction h with
  | nil => exact ⟨[], .nil, by simp, toks_nil⟩
  | @cons m c ms cs hc hcs ih =>
    obtain ⟨ps, h1, h2, h3⟩ := ih fun x hx => hn x (by simp [hx])
    obtain ⟨ss, g1, g2, g3⟩ := toks_col hS (hn m (by simp)) hc
    have e : columnText q m = 9 :: (q m.name ++ 32 :: (m.type ++ ((if (!m.nullable) = true then lit " NOT NULL" else []) ++
        (match m.dflt with | some v => lit " DEFAULT " ++ v | none => [])))) := by
      unfold columnText
      cases m.nullable <;> rfl
    have g1' : Toks S (columnText q m) (.name m.name :: ss) := by rw [e]; exact toks_lead hS g1 rfl
    refine ⟨(.name m.name :: ss) :: ps, .cons ⟨ss, rfl, whole_name _ g2, by simp [g3]⟩ h1, ?_, ?_⟩
    · intro es r hr
      simp [elements, g3, h2 es r hr]
    · cases hcs with
      | nil =>
        cases h1
        simpa [columnsText, joinS] using g1'
      | cons _ _ =>
        cases h1 with
        | cons _ _ =>
          simp only [columnsText, joinS]
          exact toks_mark hS g1' (toks_lead hS h3 rfl) rfl

theorem toks_names {ns : List Bytes} (h : ∀ n ∈ ns, NameOk S q n) : Toks S (namesText q ns) (joinS (ns.map fun n => [.name n])) := by
  induction ns with
  | nil => exact toks_nil
  | cons n ns ih =>
    have hn := toks_name hS (h n (by simp))
    have := ih fun x hx => h x (by simp [hx])
    cases ns with
    | nil => simpa [namesText, joinS] using hn
    | cons n' ns =>
      simp only [namesText, joinS, List.map_cons] at this ⊢
      exact toks_mark hS hn this rfl

omit hS in
theorem names_join {ns : List Bytes} (h : ns ≠ []) : names (joinS (ns.map fun n => [.name n])) = some ns := by
  induction ns with
  | nil => exact absurd rfl h
  | cons n ns ih =>
    cases ns with
    | nil => rfl
    | cons n' ns =>
      have := ih (by simp)
      simp only [List.map_cons] at this
      simp [joinS, names, this]

/-- The symbols of the key. -/
def keySyms (k : Bytes) (pks : List Bytes) : List Sym :=
  kw "CONSTRAINT" :: .name k :: kw "PRIMARY" :: kw "KEY" :: .mark 40 :: (joinS (pks.map fun n => [.name n]) ++ [.mark 41])

omit hS in
theorem whole_key (k : Bytes) (pks : List Bytes) : Whole false (keySyms k pks) :=
  whole_kw _ (whole_name _ (whole_kw _ (whole_kw _ (.paren (whole_join (by
    intro p hp
    obtain ⟨n, -, rfl⟩ := List.mem_map.1 hp
    exact whole_name n .nil)) .nil))))

omit hS in
theorem elements_key (k : Bytes) {pks : List Bytes} (h : pks ≠ []) : elements S [keySyms k pks] = some ([], some (k, pks)) := by
  unfold keySyms kw
  unfold elements
  rw [if_pos ⟨rfl, rfl, rfl, rfl, by simp⟩]
  simp [names_join h]

/-- What stands in the parentheses of `CREATE TABLE`. -/
theorem toks_body {md5 : Bytes → Bytes} {ms : List GoCol} {cs : List Col} {pks : List Bytes} (hne : ms ≠ [])
    (hn : ∀ m ∈ ms, NameOk S q m.name) (hp : ∀ n ∈ pks, NameOk S q n) (hk : NameOk S q (keyName md5 pks))
    (h : List.Forall₂ (fun m c => ColOf S m.name m.type (!m.nullable) m.dflt c) ms cs) :
    ∃ ps, ps ≠ [] ∧ (∀ p ∈ ps, Whole false p) ∧
      elements S ps = some (cs, if pks = [] then none else some (keyName md5 pks, pks)) ∧
      Toks S (columnsText q ms ++ keyText q md5 pks) (joinS ps) := by
  obtain ⟨ps, h1, h2, h3⟩ := toks_columns hS hn h
  have hps : ps ≠ [] := by
    rintro rfl
    cases h1
    exact hne rfl
  have hw : ∀ p ∈ ps, Whole false p := by
    intro p hp
    clear h2 h3 hps hn hne h
    induction h1 with
    | nil => cases hp
    | cons hh _ ih =>
      rcases List.mem_cons.1 hp with rfl | hp
      · exact hh.choose_spec.2.1
      · exact ih hp
  unfold keyText
  by_cases hpk : pks = []
  · rw [if_pos hpk, if_pos hpk, List.append_nil]
    exact ⟨ps, hps, hw, by simpa using h2 [] _ rfl, h3⟩
  · rw [if_neg hpk, if_neg hpk]
    refine ⟨ps ++ [keySyms (keyName md5 pks) pks], by simp, ?_, ?_, ?_⟩
    · intro p hp
      rcases List.mem_append.1 hp with hp | hp
      · exact hw p hp
      · rw [List.mem_singleton.1 hp]; exact whole_key _ _
    · simpa using h2 _ _ (elements_key (keyName md5 pks) hpk)
    · rw [joinS_append hps]
      have e1 : lit ",\n\tCONSTRAINT " = 44 :: 10 :: 9 :: (lit "CONSTRAINT" ++ [32]) := by decide +kernel
      have e2 : lit " PRIMARY KEY (" = 32 :: (lit "PRIMARY" ++ 32 :: (lit "KEY" ++ 32 :: [40])) := by decide +kernel
      rw [e1, e2]
      have k1 := toks_kw hS "CONSTRAINT" (by decide +kernel)
      have k2 := toks_kw hS "PRIMARY" (by decide +kernel)
      have k3 := toks_kw hS "KEY" (by decide +kernel)
      have hnames := toks_mark hS (toks_names hS hp) toks_nil (b := 41) rfl
      have hopen := toks_mark hS toks_nil hnames (b := 40) rfl
      have := toks_mark hS h3 (toks_lead hS (toks_lead hS (toks_space hS k1 (toks_space hS (toks_name hS hk)
        (toks_space hS k2 (toks_space hS k3 hopen (b := 32) rfl) (b := 32) rfl) (b := 32) rfl) (b := 32) rfl) (b := 9) rfl) (b := 10) rfl) (b := 44) rfl
      simpa [keySyms] using this

/-- `CREATE TABLE`. -/
theorem toks_create {md5 : Bytes → Bytes} {table : Bytes} (ht : NameOk S q table) {ms : List GoCol} {cs : List Col} {pks : List Bytes}
    (hne : ms ≠ []) (hn : ∀ m ∈ ms, NameOk S q m.name) (hp : ∀ n ∈ pks, NameOk S q n) (hk : NameOk S q (keyName md5 pks))
    (h : List.Forall₂ (fun m c => ColOf S m.name m.type (!m.nullable) m.dflt c) ms cs) :
    ∃ ss x, createText q md5 table ms pks = 10 :: (x ++ [59]) ∧ Toks S x ss ∧ Whole true ss ∧
      stmt S ss = some (.create table cs (if pks = [] then none else some (keyName md5 pks, pks))) := by
  obtain ⟨ps, h1, h2, h3, h4⟩ := toks_body hS hne hn hp hk h
  have e1 : lit "\nCREATE TABLE IF NOT EXISTS " = 10 :: (lit "CREATE" ++ 32 :: (lit "TABLE" ++ 32 :: (lit "IF" ++ 32 :: (lit "NOT" ++ 32 ::
      (lit "EXISTS" ++ [32]))))) := by decide +kernel
  have e2 : lit " (\n" = 32 :: 40 :: [10] := by decide +kernel
  have e3 : lit "\n);" = 10 :: 41 :: [59] := by decide +kernel
  have k1 := toks_kw hS "CREATE" (by decide +kernel)
  have k2 := toks_kw hS "TABLE" (by decide +kernel)
  have k3 := toks_kw hS "IF" (by decide +kernel)
  have k4 := toks_kw hS "NOT" (by decide +kernel)
  have k5 := toks_kw hS "EXISTS" (by decide +kernel)
  have hbody := toks_space hS h4 (toks_mark hS toks_nil toks_nil (b := 41) rfl) (b := 10) rfl
  have hopen := toks_mark hS toks_nil (toks_lead hS hbody (b := 10) rfl) (b := 40) rfl
  have hx := toks_space hS k1 (toks_space hS k2 (toks_space hS k3 (toks_space hS k4 (toks_space hS k5 (toks_space hS (toks_name hS ht) hopen
    (b := 32) rfl) (b := 32) rfl) (b := 32) rfl) (b := 32) rfl) (b := 32) rfl) (b := 32) rfl
  refine ⟨_, _, ?_, hx, ?_, ?_⟩
  · unfold createText
    rw [e1, e2, e3]
    simp
  · simp only [List.cons_append, List.nil_append]
    refine whole_kw _ (whole_kw _ (whole_kw _ (whole_kw _ (whole_kw _ (whole_name _ ?_)))))
    exact .paren (whole_join h2) .nil
  · simp only [List.cons_append, List.nil_append]
    unfold kw
    rw [stmt]
    rw [if_pos ⟨rfl, rfl, rfl, rfl, rfl, rfl, by simp⟩]
    simp [split_join h2 h1, h3]

/-! ## Clauses -/

/-- The clauses of `ALTER TABLE`. -/
theorem toks_clauses {as : List Action} {ps : List (List Sym)} (h : List.Forall₂ (fun a p => Toks S (a.text q) p) as ps) :
    Toks S (List.intercalate [44, 10] (as.map (Action.text q))) (joinS ps) := by
  induction h with
  | nil => exact toks_nil
  | @cons a p as ps hp hps ih =>
    cases hps with
    | nil => simpa [List.intercalate, joinS] using hp
    | @cons a' p' as' ps' hp' hps' =>
      have := toks_mark hS hp (toks_lead hS ih (b := 10) rfl) (b := 44) rfl
      simpa [List.intercalate, joinS] using this

theorem toks_alter {table : Bytes} (ht : NameOk S q table) {as : List Action} {ps : List (List Sym)}
    (h : List.Forall₂ (fun a p => Toks S (a.text q) p) as ps) (hw : ∀ p ∈ ps, Whole false p) :
    ∃ x, statement q table as = 10 :: (x ++ [59]) ∧ Toks S x (kw "ALTER" :: kw "TABLE" :: .name table :: joinS ps) ∧
      Whole true (kw "ALTER" :: kw "TABLE" :: .name table :: joinS ps) := by
  have e1 : "\nALTER TABLE ".toUTF8.toList = 10 :: (lit "ALTER" ++ 32 :: (lit "TABLE" ++ [32])) := by decide +kernel
  have hq : (q table).getLast? ≠ some 44 := by
    rw [ht.1]
    have : (S.quote :: (table ++ [S.quote])).getLast? = some S.quote := by rw [List.getLast?_cons]; simp
    rw [this]
    rcases hS.quote with e | e <;> rw [e] <;> decide
  have k1 := toks_kw hS "ALTER" (by decide +kernel)
  have k2 := toks_kw hS "TABLE" (by decide +kernel)
  refine ⟨_, ?_, toks_space hS k1 (toks_space hS k2 (toks_space hS (toks_name hS ht) (toks_clauses hS h) (b := 10) rfl) (b := 32) rfl)
    (b := 32) rfl, whole_kw _ (whole_kw _ (whole_name _ (whole_join hw)))⟩
  rw [Verif.Props.C56_text q table as hq, e1]
  simp

omit hS in
theorem stmt_alter {table : Bytes} {ps : List (List Sym)} (hw : ∀ p ∈ ps, Whole false p) (hne : ∀ p ∈ ps, p ≠ []) :
    stmt S (kw "ALTER" :: kw "TABLE" :: .name table :: joinS ps) =
      if ps = [] then if S.lax then some (.alter table []) else none else (ps.mapM (clause S)).map (.alter table) := by
  unfold kw
  rw [stmt]
  rw [if_pos ⟨rfl, rfl⟩]
  cases ps with
  | nil => simp [joinS]
  | cons p ps =>
    have : joinS (p :: ps) ≠ [] := by
      cases ps with
      | nil => exact hne p (by simp)
      | cons => simp [joinS]
    rw [if_neg this, if_neg (by simp), split_join hw (by simp)]

/-- A clause as it is meant. -/
theorem toks_says {a : Action} {c : Clause} (h : Says S a c)
    (hn : NameOk S q (target a)) :
    ∃ p, Toks S (a.text q) p ∧ Whole false p ∧ p ≠ [] ∧ clause S p = some c := by
  have e1 : lit "\tALTER " = 9 :: (lit "ALTER" ++ [32]) := by decide +kernel
  have e2 : lit " SET DATA TYPE " = 32 :: (lit "SET" ++ 32 :: (lit "DATA" ++ 32 :: (lit "TYPE" ++ [32]))) := by decide +kernel
  have e3 : lit " SET NOT NULL" = 32 :: (lit "SET" ++ 32 :: (lit "NOT" ++ 32 :: lit "NULL")) := by decide +kernel
  have e4 : lit " SET DEFAULT " = 32 :: (lit "SET" ++ 32 :: (lit "DEFAULT" ++ [32])) := by decide +kernel
  have e5 : lit "\tADD COLUMN " = 9 :: (lit "ADD" ++ 32 :: (lit "COLUMN" ++ [32])) := by decide +kernel
  have e6 : lit " " = [32] := by decide +kernel
  have e9 : lit "\tDROP COLUMN " = 9 :: (lit "DROP" ++ 32 :: (lit "COLUMN" ++ [32])) := by decide +kernel
  have kA := toks_kw hS "ALTER" (by decide +kernel)
  have kS := toks_kw hS "SET" (by decide +kernel)
  have kD := toks_kw hS "DATA" (by decide +kernel)
  have kT := toks_kw hS "TYPE" (by decide +kernel)
  have kN := toks_kw hS "NOT" (by decide +kernel)
  have kL := toks_kw hS "NULL" (by decide +kernel)
  have kF := toks_kw hS "DEFAULT" (by decide +kernel)
  have kX := toks_kw hS "ADD" (by decide +kernel)
  have kC := toks_kw hS "COLUMN" (by decide +kernel)
  have kR := toks_kw hS "DROP" (by decide +kernel)
  have n1 : kw "NOT" ≠ kw "DATA" := by decide +kernel
  have n2 : kw "DEFAULT" ≠ kw "DATA" := by decide +kernel
  have n3 : kw "DEFAULT" ≠ kw "NOT" := by decide +kernel
  have n4 : kw "DROP" ≠ kw "ADD" := by decide +kernel
  have sp : isSpace 32 = true := rfl
  cases a with
  | setType n t =>
    cases c <;> simp only [Says] at h
    obtain ⟨rfl, g1, g2, g3, g4⟩ := h
    rename_i n ty
    have hty := toks_symbols g1 (whole_comment g3)
    have hq : Toks S (q n) [.name n] := toks_name hS hn
    refine ⟨_, by
      unfold Action.text
      rw [e1, e2]
      have := toks_lead hS (toks_space hS kA (toks_space hS hq (toks_space hS kS (toks_space hS kD (toks_space hS kT hty sp) sp) sp) sp) sp) (b := 9) rfl
      simpa using this, ?_, by simp, ?_⟩
    · exact whole_kw _ (whole_name _ (whole_kw _ (whole_kw _ (whole_kw _ g3))))
    · have : ty.any isAttr = false := by simpa using g4
      simp [clause, g2, this]
  | setNotNull n =>
    cases c <;> simp only [Says] at h
    subst h
    rename_i n
    have hq : Toks S (q n) [.name n] := toks_name hS hn
    refine ⟨_, by
      unfold Action.text
      rw [e1, e3]
      have := toks_lead hS (toks_space hS kA (toks_space hS hq (toks_space hS kS (toks_space hS kN kL sp) sp) sp) sp) (b := 9) rfl
      simpa using this, ?_, by simp, ?_⟩
    · exact whole_kw _ (whole_name _ (whole_kw _ (whole_kw _ (whole_kw _ .nil))))
    · simp [clause, n1]
  | setDefault n v =>
    cases c <;> simp only [Says] at h
    obtain ⟨rfl, g1, g2, g3⟩ := h
    rename_i n d
    have hv := toks_symbols g1 (whole_comment g3)
    have hq : Toks S (q n) [.name n] := toks_name hS hn
    refine ⟨_, by
      unfold Action.text
      rw [e1, e4]
      have := toks_lead hS (toks_space hS kA (toks_space hS hq (toks_space hS kS (toks_space hS kF hv sp) sp) sp) sp) (b := 9) rfl
      simpa using this, ?_, by simp, ?_⟩
    · exact whole_kw _ (whole_name _ (whole_kw _ (whole_kw _ g3)))
    · cases d with
      | nil => exact absurd rfl g2
      | cons x d => simp [clause, n2, n3]
  | add n t nn v =>
    cases t with
    | none => cases c <;> simp only [Says] at h
    | some t =>
      cases c <;> simp only [Says] at h
      obtain ⟨ss, g1, g2, g3⟩ := toks_col hS (n := n) hn h
      refine ⟨_, by
        unfold Action.text
        rw [e5, e6]
        have := toks_lead hS (toks_space hS kX (toks_space hS kC g1 sp) sp) (b := 9) rfl
        cases v <;> simpa using this, ?_, by simp, ?_⟩
      · exact whole_kw _ (whole_kw _ (whole_name _ g2))
      · unfold kw
        unfold clause
        simp [kw, g3]
  | drop n =>
    cases c <;> simp only [Says] at h
    subst h
    rename_i n
    have hq : Toks S (q n) [.name n] := toks_name hS hn
    refine ⟨_, by
      unfold Action.text
      rw [e9]
      have := toks_lead hS (toks_space hS kR (toks_space hS kC hq sp) sp) (b := 9) rfl
      simpa using this, ?_, by simp, ?_⟩
    · exact whole_kw _ (whole_kw _ (whole_name _ .nil))
    · show clause S [.word _, .word _, .name n] = _
      rw [clause, if_neg fun h => n4 h.1, if_pos ⟨rfl, rfl, rfl⟩]
      all_goals intros; simp_all

/-- `ADD COLUMN` without a type. -/
theorem toks_bare {n : Bytes} {nn : Bool} {v : Option Bytes} (hn : NameOk S q n)
    (hv : ∀ x, v = some x → ∃ d, symbols S x = some d ∧ Whole false d) :
    ∃ p, Toks S ((Action.add n none nn v).text q) p ∧ Whole false p ∧ p ≠ [] ∧ clause S p = none := by
  have e5 : lit "\tADD COLUMN " = 9 :: (lit "ADD" ++ 32 :: (lit "COLUMN" ++ [32])) := by decide +kernel
  have kX := toks_kw hS "ADD" (by decide +kernel)
  have kC := toks_kw hS "COLUMN" (by decide +kernel)
  have sp : isSpace 32 = true := rfl
  obtain ⟨v', hv', hw⟩ : ∃ v' : Option (List Sym), ((v = none ∧ v' = none) ∨ ∃ x y, v = some x ∧ v' = some y ∧ Toks S x y) ∧
      ∀ x, v' = some x → Whole false x := by
    cases v with
    | none => exact ⟨none, .inl ⟨rfl, rfl⟩, by simp⟩
    | some x =>
      obtain ⟨d, h1, h2⟩ := hv x rfl
      exact ⟨some d, .inr ⟨x, d, rfl, rfl, toks_symbols h1 (whole_comment h2)⟩, by simpa using h2⟩
  have h := toks_lead hS (toks_space hS kX (toks_space hS kC (toks_ext hS (toks_name hS hn) (notNull := nn) hv') sp) sp) (b := 9) rfl
  refine ⟨_, by
    unfold Action.text
    rw [e5]
    cases v <;> simpa using h, ?_, by simp, ?_⟩
  · exact whole_kw _ (whole_kw _ (whole_name _ (whole_ext hw)))
  · have ht : (ext nn v').takeWhile (fun s => !isAttr s) = [] := by
      have := takeWhile_attrs [] (attrs_ext_attrs nn v')
      simpa using this
    show clause S (.word _ :: .word _ :: .name n :: ([] ++ ext nn v')) = none
    rw [clause, if_pos ⟨rfl, rfl⟩]
    · simp [column, ht]
    all_goals intros; simp_all

/-! ## Scripts -/

omit hS in
theorem filter_whole {ss : List Sym} (h : ∀ s ∈ ss, isComment s = false) : ss.filter (!isComment ·) = ss :=
  List.filter_eq_self.2 fun s hs => by simp [h s hs]

omit hS in
theorem takeWhile_down {xs ys : List Sym} (h : ∀ s ∈ xs, s ≠ downMark) :
    (xs ++ downMark :: ys).takeWhile (· ≠ downMark) = xs ∧ (xs ++ downMark :: ys).dropWhile (· ≠ downMark) = downMark :: ys := by
  induction xs with
  | nil => simp
  | cons x xs ih =>
    have := ih fun s hs => h s (by simp [hs])
    have hx := h x (by simp)
    simp only [List.cons_append]
    rw [List.takeWhile_cons_of_pos (by simpa using hx), List.dropWhile_cons_of_pos (by simpa using hx)]
    exact ⟨by rw [this.1], this.2⟩

/-- The whole script, from the symbols of its three statements. -/
theorem script_toks {md5 : Bytes → Bytes} {table : Bytes} {pks : List Bytes} {s : Script} {c u d : Bytes} {cs us ds : List Sym}
    (ec : createText q md5 table s.create pks = 10 :: (c ++ [59])) (eu : statement q table s.up = 10 :: (u ++ [59]))
    (ed : statement q table s.down = 10 :: (d ++ [59])) (hc : Toks S c cs) (hu : Toks S u us) (hd : Toks S d ds)
    (wc : Whole true cs) (wu : Whole true us) (wd : Whole true ds) :
    script S (scriptText q md5 table pks s) = some ([cs, us].mapM (stmt S), [ds].mapM (stmt S)) := by
  let c1 := lit " +migrate Up"
  let c2 := lit " SQL in section 'Up' is executed when this migration is applied"
  let c3 := lit " +migrate Down"
  let c4 := lit " SQL section 'Down' is executed when this migration is rolled back"
  have e1 : lit "-- +migrate Up" = 45 :: 45 :: c1 := by decide +kernel
  have e2 : lit "\n-- SQL in section 'Up' is executed when this migration is applied" = 10 :: 45 :: 45 :: c2 := by decide +kernel
  have e3 : lit "\n\n-- +migrate Down" = 10 :: 10 :: 45 :: 45 :: c3 := by decide +kernel
  have e4 : lit "\n-- SQL section 'Down' is executed when this migration is rolled back" = 10 :: 45 :: 45 :: c4 := by decide +kernel
  have n1 : (10 : Byte) ∉ c1 := by decide +kernel
  have n2 : (10 : Byte) ∉ c2 := by decide +kernel
  have n3 : (10 : Byte) ∉ c3 := by decide +kernel
  have n4 : (10 : Byte) ∉ c4 := by decide +kernel
  have t4 := toks_line hS n3 (toks_line hS n4 (toks_mark hS hd toks_nil (b := 59) rfl))
  have t3 := toks_mark hS hu (toks_lead hS (toks_lead hS t4 (b := 10) rfl) (b := 10) rfl) (b := 59) rfl
  have t2 := toks_mark hS hc (toks_lead hS t3 (b := 10) rfl) (b := 59) rfl
  have t1 := symbols_toks (toks_line hS n1 (toks_line hS n2 t2))
  have e : scriptText q md5 table pks s = 45 :: 45 :: (c1 ++ 10 :: 45 :: 45 :: (c2 ++ 10 :: (c ++ 59 :: 10 :: (u ++ 59 :: 10 :: 10 :: 45 :: 45 ::
      (c3 ++ 10 :: 45 :: 45 :: (c4 ++ 10 :: (d ++ [59]))))))) := by
    unfold scriptText
    rw [e1, e2, e3, e4, ec, eu, ed]
    simp
  have m1 : Sym.comment c1 ≠ downMark := by decide +kernel
  have m2 : Sym.comment c2 ≠ downMark := by decide +kernel
  have hne : ∀ s, isComment s = false → s ≠ downMark := by
    rintro s h rfl
    exact Bool.noConfusion h
  have ess : (Sym.comment c1 :: .comment c2 :: (cs ++ .mark 59 :: (us ++ .mark 59 :: .comment c3 :: .comment c4 :: (ds ++ [.mark 59])))) =
      (Sym.comment c1 :: .comment c2 :: (cs ++ .mark 59 :: (us ++ [.mark 59]))) ++ downMark :: (.comment c4 :: (ds ++ [.mark 59])) := by
    simp only [List.cons_append, List.append_assoc, List.nil_append]
    rfl
  have hall : ∀ x ∈ (Sym.comment c1 :: .comment c2 :: (cs ++ .mark 59 :: (us ++ [.mark 59]))), x ≠ downMark := by
    intro x hx
    simp only [List.mem_cons, List.mem_append, List.not_mem_nil, or_false] at hx
    rcases hx with rfl | rfl | hx | rfl | hx | rfl
    · exact m1
    · exact m2
    · exact hne x (whole_comment wc x hx)
    · exact hne _ rfl
    · exact hne x (whole_comment wu x hx)
    · exact hne _ rfl
  unfold script
  rw [e, t1, Option.bind_some, ess, if_pos (show List.head? _ = some upMark from rfl), (takeWhile_down hall).1, (takeWhile_down hall).2]
  have f1 : List.filter (!isComment ·) (Sym.comment c1 :: .comment c2 :: (cs ++ .mark 59 :: (us ++ [.mark 59]))) =
      cs ++ .mark 59 :: (us ++ .mark 59 :: []) := by
    rw [List.filter_cons_of_neg (by simp [isComment]), List.filter_cons_of_neg (by simp [isComment]), filter_whole]
    intro x hx
    simp only [List.mem_cons, List.mem_append, List.not_mem_nil, or_false] at hx
    rcases hx with hx | rfl | hx | rfl
    · exact whole_comment wc x hx
    · rfl
    · exact whole_comment wu x hx
    · rfl
  have f2 : List.filter (!isComment ·) (downMark :: .comment c4 :: (ds ++ [.mark 59])) = ds ++ .mark 59 :: [] := by
    rw [List.filter_cons_of_neg (by simp [isComment, downMark]), List.filter_cons_of_neg (by simp [isComment]), filter_whole]
    intro x hx
    simp only [List.mem_cons, List.mem_append, List.not_mem_nil, or_false] at hx
    rcases hx with hx | rfl
    · exact whole_comment wd x hx
    · rfl
  rw [f1, f2]
  unfold stmts
  simp only
  rw [split_at (.inr rfl) wc (by simp), split_at (.inr rfl) wu (by simp), split_at (.inr rfl) wd (by simp)]
  simp [split]

end

end Verif.Spec.Ddl

import Verif.Spec.MyTable
import Verif.Props.Made
import Verif.Lemmas.PgType

/-!
# C111: MySQL makes the tables of migrations

For every model: the script that `Migrate` writes for a table that is not there is accepted by MySQL, and makes it.

True exactly for models whose columns fit.  False for sizes that are too large, for defaults of documents and bytes, for keys that are
documents or bytes, for more than three texts in a key and for more than 64 texts in a record, unless sizes are given.
-/

namespace Verif.Props

open Verif Verif.Spec Verif.Migrate Verif.Spec.Ddl Verif.Spec.MyTable Verif.Spec.Made
open Verif.PgType (Entry Field)

/-- Lengths are read as they are written. -/
theorem parse_intDec (n : Int) {m : Nat} (hm : m < 2 ^ 64) :
    (∀ k, parseUint (intDec n) 10 64 = some k → k ≤ m → n = k) ∧ (0 ≤ n → n ≤ m → parseUint (intDec n) 10 64 = some n.toNat) := by
  unfold intDec
  split
  · next hn =>
    have : parseUint (45 :: natDec n.natAbs) 10 64 = none := by
      unfold parseUint parseDigits
      rfl
    rw [this]
    exact ⟨by simp, fun h => by omega⟩
  · next hn =>
    have e : n.natAbs = n.toNat := by omega
    rw [e]
    refine ⟨fun k hp hk => ?_, fun _ h => parseUint_natDec (by omega)⟩
    have h1 := parseUint_natDec (n := n.toNat) (w := n.toNat + 64)
      (Nat.lt_of_lt_of_le Nat.lt_two_pow_self (Nat.pow_le_pow_right (by decide) (by omega)))
    have hk' := (parseUint_iff (by decide)).1 hp
    have h2 := (parseUint_iff (b := 10) (w := n.toNat + 64) (by decide)).2
      ⟨hk'.1, Nat.lt_of_lt_of_le hk'.2 (Nat.pow_le_pow_right (by decide) (by omega))⟩
    rw [h1] at h2
    cases h2
    omega

theorem kind_char (n : Int) :
    kind [Ddl.kw "CHAR", .mark 40, .word (intDec n), .mark 41] = if 0 ≤ n ∧ n ≤ 255 then some (.char n.toNat) else none := by
  have hv : ¬ (Ddl.kw "CHAR" = Ddl.kw "VARCHAR") := by decide +kernel
  obtain ⟨h1, h2⟩ := parse_intDec n (m := 255) (by decide)
  unfold kind
  simp only [hv, false_and, if_false, true_and, and_self, if_true]
  cases hp : parseUint (intDec n) 10 64 with
  | none =>
    rw [if_neg]
    rintro ⟨h, h'⟩
    rw [h2 h h'] at hp
    cases hp
  | some k =>
    by_cases hk : k ≤ 255
    · have := h1 k hp hk
      subst this
      simp [hk]
    · simp only [hk, if_false]
      rw [if_neg]
      rintro ⟨h, h'⟩
      rw [h2 h h'] at hp
      cases hp
      omega

theorem kind_varchar (n : Int) :
    kind [Ddl.kw "VARCHAR", .mark 40, .word (intDec n), .mark 41] = if 0 ≤ n ∧ n ≤ 16383 then some (.varchar n.toNat) else none := by
  have hv : ¬ (Ddl.kw "VARCHAR" = Ddl.kw "CHAR") := by decide +kernel
  obtain ⟨h1, h2⟩ := parse_intDec n (m := 16383) (by decide)
  unfold kind
  simp only [hv, false_and, if_false, true_and, and_self, if_true]
  cases hp : parseUint (intDec n) 10 64 with
  | none =>
    rw [if_neg]
    rintro ⟨h, h'⟩
    rw [h2 h h'] at hp
    cases hp
  | some k =>
    by_cases hk : k ≤ 16383
    · have := h1 k hp hk
      subst this
      simp [hk]
    · simp only [hk, if_false]
      rw [if_neg]
      rintro ⟨h, h'⟩
      rw [h2 h h'] at hp
      cases hp
      omega

/-- The types that are written are those that are meant. -/
theorem kind_mySyms (size : Int) (e : Entry) : kind (mySyms size e) = meant size e := by
  cases e with
  | rune => exact (kind_char 1).trans rfl
  | string =>
    show kind [Ddl.kw "VARCHAR", .mark 40, .word (intDec (if size > 0 then size else 255)), .mark 41] = _
    rw [kind_varchar]
    unfold meant
    by_cases h : size > 0
    · simp only [h, if_true, if_neg (show ¬ size ≤ 0 by omega)]
      by_cases h2 : size ≤ 16383
      · rw [if_pos ⟨by omega, h2⟩, if_pos h2]
      · rw [if_neg (by omega), if_neg h2]
    · simp only [h, if_false, if_pos (show size ≤ 0 by omega)]
      rfl
  | arrayRune => exact kind_varchar size
  | arrayByte => exact kind_char size
  | int k =>
    cases k with
    | byte => exact (kind_char 1).trans rfl
    | _ => simp only [mySyms, meant]; decide +kernel
  | sliceInt k => cases k <;> simp only [mySyms, meant] <;> decide +kernel
  | _ => simp only [mySyms, meant]; decide +kernel

theorem read_myCol (f : Field) : Column.read (myCol f) = MyTable.column f := by
  unfold Column.read MyTable.column myCol
  simp only [kind_mySyms]

variable {fits : Kind → List Ddl.Sym → Bool} {q md5 : Bytes → Bytes} {table : Bytes} {pks : List Bytes} {fs : List Field}

/-- C111: MySQL makes the table of the script exactly if every field fits into a column of the kind that is meant for it, and the columns
into a table. -/
theorem C111_makes_iff (hne : fs ≠ []) (hn : ∀ n ∈ table :: keyName md5 pks :: (pks ++ fs.map (·.name)), NameOk mysql q n)
    (hd : ∀ f ∈ fs, Readable mysql f) :
    Makes fits (scriptText q md5 table pks (mysqlMigrate (fs.map MyType.col) [])) table ↔
      ∃ cs, fs.mapM MyTable.column = some cs ∧ TableOk fits cs pks := by
  have hs := my_script (q := q) (md5 := md5) (table := table) (pks := pks) hne hn hd
  have hm : (fs.map myCol).mapM Column.read = fs.mapM MyTable.column := by
    rw [List.mapM_map]
    congr 1
    funext f
    exact read_myCol f
  have hk : (((if pks = [] then none else some (keyName md5 pks, pks)) : Option (Bytes × List Bytes)).map (·.2)).getD [] = pks := by
    by_cases h : pks = [] <;> simp [h]
  unfold Makes
  rw [hs]
  simp only [Option.bind_some, Option.some.injEq, List.cons.injEq, Stmt.create.injEq, true_and]
  constructor
  · rintro ⟨cols, key, rest, ⟨⟨rfl, rfl⟩, -⟩, h⟩
    rwa [hm, hk] at h
  · intro h
    refine ⟨_, _, _, ⟨⟨rfl, rfl⟩, rfl⟩, ?_⟩
    rwa [hm, hk]

/-! ### What the columns have to be -/

theorem mapM_cons_some {α β : Type} {g : α → Option β} {a : α} {l : List α} {r : List β} (h : (a :: l).mapM g = some r) :
    ∃ b r', g a = some b ∧ l.mapM g = some r' ∧ r = b :: r' := by
  rw [List.mapM_cons] at h
  cases hb : g a with
  | none => simp [hb] at h
  | some b =>
    cases hr : l.mapM g with
    | none => simp [hb, hr] at h
    | some r' =>
      simp [hb, hr] at h
      exact ⟨b, r', rfl, rfl, h.symm⟩

theorem mapM_mem {α β : Type} {g : α → Option β} : ∀ {l : List α} {r : List β}, l.mapM g = some r →
    (∀ a ∈ l, ∃ b ∈ r, g a = some b) ∧ (∀ b ∈ r, ∃ a ∈ l, g a = some b)
  | [], r, h => by
    simp at h
    subst h
    simp
  | a :: l, r, h => by
    obtain ⟨b, r', hb, hr, rfl⟩ := mapM_cons_some h
    obtain ⟨h1, h2⟩ := mapM_mem hr
    refine ⟨fun x hx => ?_, fun x hx => ?_⟩
    · rcases List.mem_cons.1 hx with rfl | hx
      · exact ⟨b, by simp, hb⟩
      · obtain ⟨y, hy, e⟩ := h1 x hx
        exact ⟨y, by simp [hy], e⟩
    · rcases List.mem_cons.1 hx with rfl | hx
      · exact ⟨a, by simp, hb⟩
      · obtain ⟨y, hy, e⟩ := h2 x hx
        exact ⟨y, by simp [hy], e⟩

/-- The column of a name, where names are different. -/
theorem find_column {cs : List Column} (hn : (cs.map fun c => fold c.name).Nodup) {c : Column} (hc : c ∈ cs) {n : Bytes}
    (e : fold c.name = fold n) : (cs.find? fun c => fold c.name = fold n) = some c := by
  induction cs with
  | nil => simp at hc
  | cons d cs ih =>
    rw [List.map_cons, List.nodup_cons] at hn
    rcases List.mem_cons.1 hc with rfl | hc
    · simp [e]
    · have : fold d.name ≠ fold n := by
        intro e'
        exact hn.1 (List.mem_map.2 ⟨c, hc, by rw [e, e']⟩)
      rw [List.find?_cons_of_neg (by simpa using this)]
      exact ih hn.2 hc

section Refuted

variable (hne : fs ≠ []) (hn : ∀ n ∈ table :: keyName md5 pks :: (pks ++ fs.map (·.name)), NameOk mysql q n)
  (hd : ∀ f ∈ fs, Readable mysql f)
include hne hn hd

/-- C111, refuted: no table with a field that is too long, or whose size is less than zero. -/
theorem C111_too_long {f : Field} (hf : f ∈ fs)
    (h : (f.entry = .string ∧ 16383 < f.size) ∨ (f.entry = .arrayRune ∧ (f.size < 0 ∨ 16383 < f.size)) ∨
      (f.entry = .arrayByte ∧ (f.size < 0 ∨ 255 < f.size))) :
    ¬ Makes fits (scriptText q md5 table pks (mysqlMigrate (fs.map MyType.col) [])) table := by
  rw [C111_makes_iff hne hn hd]
  rintro ⟨cs, hcs, -⟩
  obtain ⟨c, -, hc⟩ := (mapM_mem hcs).1 f hf
  have hm : meant f.size f.entry = none := by
    rcases h with ⟨e, h⟩ | ⟨e, h⟩ | ⟨e, h⟩ <;> rw [e] <;> unfold meant
    · simp only
      rw [if_neg (by omega), if_neg (by omega)]
    · exact if_neg (by omega)
    · exact if_neg (by omega)
  simp [MyTable.column, hm] at hc

/-- C111, refuted: no table with a default for a document or bytes, unless it is NULL or in parentheses. -/
theorem C111_default {f : Field} (hf : f ∈ fs) (hk : meant f.size f.entry = some .blob ∨ meant f.size f.entry = some .json) {v : Bytes}
    (hv : f.dflt = some v) {ss : List Ddl.Sym} (hs : symbols mysql v = some ss) (h1 : ss ≠ [Ddl.kw "NULL"]) (h2 : ss.head? ≠ some (.mark 40)) :
    ¬ Makes fits (scriptText q md5 table pks (mysqlMigrate (fs.map MyType.col) [])) table := by
  rw [C111_makes_iff hne hn hd]
  rintro ⟨cs, hcs, ok⟩
  obtain ⟨c, hmem, hc⟩ := (mapM_mem hcs).1 f hf
  have := ok.dflts c hmem ss
  rcases hk with hk | hk <;> simp only [MyTable.column, hk, Option.map_some, Option.some.injEq] at hc <;> subst hc <;>
    simp [hv, hs, dfltOk, h1, h2] at this

/-- C111, refuted: no table with a key, or a part of one, that is a document or bytes or that has no characters. -/
theorem C111_key {f : Field} (hf : f ∈ fs) (hp : f.name ∈ pks) {k : Kind} (hk : meant f.size f.entry = some k) (hi : k.inKey = none) :
    ¬ Makes fits (scriptText q md5 table pks (mysqlMigrate (fs.map MyType.col) [])) table := by
  rw [C111_makes_iff hne hn hd]
  rintro ⟨cs, hcs, ok⟩
  obtain ⟨c, hmem, hc⟩ := (mapM_mem hcs).1 f hf
  simp only [MyTable.column, hk, Option.map_some, Option.some.injEq] at hc
  obtain ⟨n, hkey, -⟩ := ok.key
  obtain ⟨l, hl, -⟩ := Option.map_eq_some_iff.1 hkey
  obtain ⟨b, -, hb⟩ := (mapM_mem hl).1 f.name hp
  rw [find_column ok.names hmem (by rw [← hc])] at hb
  simp only [Option.bind_some, ← hc, hi] at hb
  split at hb <;> cases hb

/-- C111, refuted: no table with more than three texts in its key, unless sizes are given. -/
theorem C111_long_key (h : ∃ ns : List Bytes, ns.Sublist pks ∧ 4 ≤ ns.length ∧ ∀ n ∈ ns, ∃ f ∈ fs, f.name = n ∧ f.entry = .string ∧ f.size ≤ 0) :
    ¬ Makes fits (scriptText q md5 table pks (mysqlMigrate (fs.map MyType.col) [])) table := by
  rw [C111_makes_iff hne hn hd]
  rintro ⟨cs, hcs, ok⟩
  obtain ⟨ns, hsub, hlen, hns⟩ := h
  obtain ⟨n, hkey, hle⟩ := ok.key
  obtain ⟨l, hl, rfl⟩ := Option.map_eq_some_iff.1 hkey
  have key : ∀ n ∈ ns, ∀ b, ((cs.find? fun c => fold c.name = fold n).bind fun c => if c.dflt = some [Ddl.kw "NULL"] then none else c.kind.inKey) = some b →
      b = 1020 := by
    intro n hn b hb
    obtain ⟨f, hf, rfl, e1, e2⟩ := hns n hn
    obtain ⟨c, hmem, hc⟩ := (mapM_mem hcs).1 f hf
    have hm : meant f.size f.entry = some (.varchar 255) := by
      rw [e1]
      exact if_pos e2
    simp only [MyTable.column, hm, Option.map_some, Option.some.injEq] at hc
    rw [find_column ok.names hmem (by rw [← hc])] at hb
    simp only [Option.bind_some, ← hc] at hb
    split at hb
    · cases hb
    · simpa [Kind.inKey] using hb.symm
  have sum : ∀ (g : Bytes → Option Nat) (ns ps : List Bytes) (l : List Nat), ns.Sublist ps → (∀ n ∈ ns, ∀ b, g n = some b → b = 1020) →
      ps.mapM g = some l → 1020 * ns.length ≤ l.sum := by
    intro g ns ps l hs
    induction hs generalizing l with
    | slnil => simp
    | cons a hs ih =>
      intro hg hm
      obtain ⟨b, r', hb, hr, rfl⟩ := mapM_cons_some hm
      have := ih _ hg hr
      rw [List.sum_cons]
      omega
    | cons_cons a hs ih =>
      intro hg hm
      obtain ⟨b, r', hb, hr, rfl⟩ := mapM_cons_some hm
      have := ih _ (fun n hn => hg n (by simp [hn])) hr
      have h0 := hg a (by simp) b hb
      rw [List.sum_cons, List.length_cons]
      omega
  have := sum _ ns pks l hsub key hl
  omega

/-- C111, refuted: no table with more than 64 texts in a record, unless sizes are given. -/
theorem C111_long_row (h : 64 < (fs.filter fun f => f.entry = .string ∧ f.size ≤ 0).length) :
    ¬ Makes fits (scriptText q md5 table pks (mysqlMigrate (fs.map MyType.col) [])) table := by
  rw [C111_makes_iff hne hn hd]
  rintro ⟨cs, hcs, ok⟩
  have sum : ∀ (fs : List Field) (cs : List Column), fs.mapM MyTable.column = some cs →
      1022 * (fs.filter fun f => f.entry = .string ∧ f.size ≤ 0).length ≤ (cs.map fun c => c.kind.bytes).sum := by
    intro fs
    induction fs with
    | nil => simp
    | cons f fs ih =>
      intro cs hm
      obtain ⟨c, r', hb, hr, rfl⟩ := mapM_cons_some hm
      have := ih _ hr
      rw [List.map_cons, List.sum_cons, List.filter_cons]
      split
      · next e =>
        simp only [decide_eq_true_eq] at e
        have hm : meant f.size f.entry = some (.varchar 255) := by
          rw [e.1]
          exact if_pos e.2
        simp only [MyTable.column, hm, Option.map_some, Option.some.injEq] at hb
        subst hb
        have e : (Kind.varchar 255).bytes = 1022 := rfl
        simp only [e, List.length_cons]
        omega
      · omega
  have := sum fs cs hcs
  have := ok.row
  omega

end Refuted

/-! ### Models that are fine -/

theorem plain_column (hk : Knows fits) {f : Field} (h : MyTable.Plain f) :
    ∃ k, MyTable.column f = some ⟨f.name, !f.nullable, k, usual f.entry⟩ ∧ k.bytes ≤ 1022 ∧ (∃ b, k.inKey = some b ∧ b ≤ 1020) ∧
      ∀ d, usual f.entry = some d → d ≠ [Ddl.kw "NULL"] ∧ ∀ nn, dfltOk fits k nn d = true := by
  obtain ⟨name, entry, size, auto, nullable, dflt⟩ := f
  obtain ⟨rfl, h⟩ := h
  have ne : ∀ s : String, lit s ≠ lit "NULL" → [Ddl.kw s] ≠ [Ddl.kw "NULL"] := by
    intro s hs e
    injection e with e
    injection e with e
    exact hs e
  have n1 := ne "false" (by decide +kernel)
  have n2 := ne "0" (by decide +kernel)
  have n3 := ne "CURRENT_TIMESTAMP" (by decide +kernel)
  have num : ∀ b d, b ≤ 4 → d ≠ [Ddl.kw "NULL"] → fits (.number b) d = true →
      (Kind.number b).bytes ≤ 1022 ∧ (∃ b', (Kind.number b).inKey = some b' ∧ b' ≤ 1020) ∧
        ∀ d', some d = some d' → d' ≠ [Ddl.kw "NULL"] ∧ ∀ nn, dfltOk fits (.number b) nn d' = true := by
    intro b d hb hd hf
    refine ⟨by simp only [Kind.bytes]; omega, ⟨b, rfl, by omega⟩, ?_⟩
    rintro _ ⟨⟩
    exact ⟨hd, fun nn => by simp [dfltOk, hd, hf]⟩
  have chr : (Kind.char 1).bytes ≤ 1022 ∧ (∃ b', (Kind.char 1).inKey = some b' ∧ b' ≤ 1020) ∧
        ∀ d' : List Ddl.Sym, none = some d' → d' ≠ [Ddl.kw "NULL"] ∧ ∀ nn, dfltOk fits (.char 1) nn d' = true :=
    ⟨by decide, ⟨4, rfl, by decide⟩, by simp⟩
  cases entry with
  | rune => exact ⟨_, rfl, chr⟩
  | string =>
    have h : size ≤ 255 := h
    have hm : ∃ n : Nat, meant size .string = some (.varchar n) ∧ 0 < n ∧ n ≤ 255 := by
      unfold meant
      by_cases h0 : size ≤ 0
      · exact ⟨255, if_pos h0, by decide, by decide⟩
      · refine ⟨size.toNat, ?_, by omega, by omega⟩
        rw [if_neg h0, if_pos (by omega)]
    obtain ⟨n, hm, h0, h1⟩ := hm
    refine ⟨.varchar n, by simp [MyTable.column, hm, usual], ?_, ⟨4 * n, if_neg (by omega), by omega⟩, by simp [usual]⟩
    simp only [Kind.bytes]
    split <;> omega
  | bool => exact ⟨_, rfl, num 1 _ (by decide) n1 hk.false1⟩
  | float32 => exact ⟨_, rfl, num 4 _ (by decide) n2 hk.zero⟩
  | float64 => exact ⟨_, rfl, num 4 _ (by decide) n2 hk.zero⟩
  | time =>
    refine ⟨_, rfl, by decide, ⟨4, rfl, by decide⟩, ?_⟩
    rintro _ ⟨⟩
    exact ⟨n3, fun nn => by simp [dfltOk, n3, hk.now]⟩
  | int k =>
    cases k with
    | byte => exact ⟨_, rfl, chr⟩
    | _ => exact ⟨_, rfl, num 4 _ (by decide) n1 hk.false4⟩
  | _ => exact h.elim

/-- C111, for plain models of at most 64 fields with at most three of them in the key: MySQL makes the table. -/
theorem C111_plain_partial (hk : Knows fits) (hne : fs ≠ [])
    (hn : ∀ n ∈ table :: keyName md5 pks :: (pks ++ fs.map (·.name)), NameOk mysql q n) (hp : ∀ f ∈ fs, MyTable.Plain f) (hl : fs.length ≤ 64)
    (hnd : (fs.map fun f => fold f.name).Nodup) (hks : ∀ n ∈ pks, n ∈ fs.map (·.name)) (hkd : (pks.map fold).Nodup) (hkl : pks.length ≤ 3) :
    Makes fits (scriptText q md5 table pks (mysqlMigrate (fs.map MyType.col) [])) table := by
  rw [C111_makes_iff hne hn (fun f hf v hv => by rw [(hp f hf).1] at hv; cases hv)]
  have key : ∀ fs : List Field, (∀ f ∈ fs, MyTable.Plain f) → ∃ cs, fs.mapM MyTable.column = some cs ∧ cs.length = fs.length ∧
      (cs.map fun c => fold c.name) = (fs.map fun f => fold f.name) ∧ (cs.map fun c => c.kind.bytes).sum ≤ 1022 * fs.length ∧
      (∀ c ∈ cs, (∀ d, c.dflt = some d → d ≠ [Ddl.kw "NULL"] ∧ dfltOk fits c.kind c.notNull d = true) ∧ ∃ b, c.kind.inKey = some b ∧ b ≤ 1020) := by
    intro fs
    induction fs with
    | nil => exact fun _ => ⟨[], rfl, rfl, rfl, by simp, by simp⟩
    | cons f fs ih =>
      intro h
      obtain ⟨cs, h1, h2, h3, h4, h5⟩ := ih fun g hg => h g (by simp [hg])
      obtain ⟨k, e, hb, hi, hd⟩ := plain_column hk (h f (by simp))
      refine ⟨_, by rw [List.mapM_cons, e, h1]; rfl, by simp [h2], by simp [h3], ?_, ?_⟩
      · simp only [List.map_cons, List.sum_cons, List.length_cons]
        omega
      · intro c hc
        rcases List.mem_cons.1 hc with rfl | hc
        · exact ⟨fun d hd' => ⟨(hd d hd').1, (hd d hd').2 _⟩, hi⟩
        · exact h5 c hc
  obtain ⟨cs, h1, h2, h3, h4, h5⟩ := key fs hp
  refine ⟨cs, h1, by rwa [h3], fun c hc d hd => ((h5 c hc).1 d hd).2, ?_, hkd, ?_⟩
  · have : nullable cs pks ≤ cs.length := List.length_filter_le _ _
    omega
  · have kk : ∀ ps : List Bytes, (∀ n ∈ ps, n ∈ fs.map (·.name)) → ∃ n, keySize cs ps = some n ∧ n ≤ 1020 * ps.length := by
      intro ps
      induction ps with
      | nil => exact fun _ => ⟨0, rfl, by simp⟩
      | cons p ps ih =>
        intro h
        obtain ⟨n, hn', hle⟩ := ih fun x hx => h x (by simp [hx])
        obtain ⟨l, hl', rfl⟩ := Option.map_eq_some_iff.1 hn'
        obtain ⟨f, hf, rfl⟩ := List.mem_map.1 (h p (by simp))
        obtain ⟨c, hc, e⟩ := (mapM_mem h1).1 f hf
        obtain ⟨hd, b, hb, hb'⟩ := h5 c hc
        have hcn : c.name = f.name := by
          unfold MyTable.column at e
          obtain ⟨k, -, rfl⟩ := Option.map_eq_some_iff.1 e
          rfl
        have hf' := find_column (by rwa [h3]) hc (n := f.name) (by rw [hcn])
        refine ⟨b + l.sum, ?_, by rw [List.length_cons]; omega⟩
        unfold keySize
        rw [List.mapM_cons, hf', hl']
        have : c.dflt ≠ some [Ddl.kw "NULL"] := fun e => (hd _ e).1 rfl
        simp [this, hb]
    obtain ⟨n, hn', hle⟩ := kk pks hks
    exact ⟨n, hn', by omega⟩

/-! ### Cases -/

namespace MyTableCase

private instance (S : Ddl.Server) (q : Bytes → Bytes) (n : Bytes) : Decidable (NameOk S q n) := by unfold NameOk; infer_instance
private def mq (n : Bytes) : Bytes := 96 :: (n ++ [96])
private def sum : Bytes → Bytes := fun _ => lit "0"
private def fld (n : String) (e : Entry) (size : Int) : Field := ⟨lit n, e, size, false, false, none⟩

/-- Every default is right. -/
private def all : Kind → List Ddl.Sym → Bool := fun _ _ => true

private theorem no_dflt {fs : List Field} (h : ∀ f ∈ fs, f.dflt = none) : ∀ f ∈ fs, Readable mysql f := by
  intro f hf v hv
  rw [h f hf] at hv
  cases hv

/-- a record with a key, a text and a time -/
example : Makes all (scriptText mq sum (lit "people") [lit "id"]
    (mysqlMigrate ([fld "id" (.int .uint64) 0, fld "name" .string 0, fld "at" .time 0].map MyType.col) [])) (lit "people") :=
  C111_plain_partial ⟨rfl, rfl, rfl, rfl⟩ (by simp) (by decide +kernel) (by simp [fld, MyTable.Plain]) (by decide) (by decide +kernel) (by decide +kernel)
    (by decide +kernel) (by decide)

/-- a text of 20000 characters -/
example : ¬ Makes all (scriptText mq sum (lit "people") [] (mysqlMigrate ([fld "name" .string 20000].map MyType.col) [])) (lit "people") :=
  C111_too_long (by simp) (by decide +kernel) (no_dflt (by simp [fld])) (f := fld "name" .string 20000) (by simp) (.inl ⟨rfl, by decide⟩)

/-- a list with a default -/
example : ¬ Makes all (scriptText mq sum (lit "people") []
    (mysqlMigrate ([⟨lit "tags", .sliceString, 0, false, false, some (lit "'[]'")⟩].map MyType.col) [])) (lit "people") := by
  refine C111_default (by simp) (by decide +kernel) ?_ (f := ⟨lit "tags", .sliceString, 0, false, false, some (lit "'[]'")⟩) (by simp) (.inr rfl) rfl
    (ss := [.text (lit "[]")]) (by decide +kernel) (by simp [Ddl.kw]) (by simp)
  intro f hf v hv
  simp only [List.mem_cons, List.not_mem_nil, or_false] at hf
  subst hf
  cases hv
  exact ⟨[.text (lit "[]")], by decide +kernel, by decide, .sym (by simp) rfl .nil, by decide +kernel⟩

/-- a key of 16 bytes without a size -/
example : ¬ Makes all (scriptText mq sum (lit "people") [lit "id"] (mysqlMigrate ([fld "id" .arrayByte 0].map MyType.col) [])) (lit "people") :=
  C111_key (by simp) (by decide +kernel) (no_dflt (by simp [fld])) (f := fld "id" .arrayByte 0) (by simp) (by simp [fld]) (k := .char 0) rfl rfl

/-- four texts as a key -/
example : ¬ Makes all (scriptText mq sum (lit "people") [lit "a", lit "b", lit "c", lit "d"]
    (mysqlMigrate ([fld "a" .string 0, fld "b" .string 0, fld "c" .string 0, fld "d" .string 0].map MyType.col) [])) (lit "people") :=
  C111_long_key (by simp) (by decide +kernel) (no_dflt (by simp [fld])) ⟨_, .refl _, by decide, by simp [fld]⟩

/-- 65 texts in a record -/
example : ¬ Makes all (scriptText mq sum (lit "people") []
    (mysqlMigrate (((List.range 65).map fun i => ⟨natDec i, .string, 0, false, false, none⟩).map MyType.col) [])) (lit "people") :=
  C111_long_row (by simp) (by decide +kernel) (no_dflt (by simp)) (by decide +kernel)

/-- what MySQL reads, and the condition -/
example : (MyTable.column (fld "name" .string 20)).map (fun c => (c.kind.bytes, c.kind.inKey)) = some (81, some 80) := by decide +kernel

end MyTableCase

end Verif.Props

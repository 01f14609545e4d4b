import Verif.Lemmas.Gen
import Verif.Spec.Helpers

/-!
# Lemmas about the insert, upsert and by-key helpers
-/

namespace Verif.Spec.Helpers

open Verif Verif.Spec Verif.Spec.Gen Verif.Helpers

variable {R V α : Type}

/-! ### Removing positions -/

/-- `without` by recursion. -/
def dropP (p : Nat → Bool) : List α → List α
  | [] => []
  | a :: l => (if p 0 then [] else [a]) ++ dropP (fun i => p (i + 1)) l

theorem dropP_zipIdx (p : Nat → Bool) (l : List α) (k : Nat) :
    (((l.zipIdx k).filter fun x => !p x.2).map (·.1)) = dropP (fun i => p (i + k)) l := by
  induction l generalizing k with
  | nil => rfl
  | cons a l ih =>
    rw [List.zipIdx_cons, List.filter_cons, dropP]
    have e : (fun i => p (i + 1 + k)) = fun i => p (i + (k + 1)) := by
      funext i; congr 1; omega
    cases h : p k <;> simp [h, ih, e]

theorem without_eq (gone : List Nat) (l : List α) : without gone l = dropP gone.contains l :=
  dropP_zipIdx _ l 0

theorem dropP_none (l : List α) : dropP (fun _ => false) l = l := by
  induction l with
  | nil => rfl
  | cons a l ih => simp [dropP, ih]

theorem without_nil (l : List α) : without [] l = l := by
  rw [without_eq]; exact dropP_none l

theorem dropP_congr {p q : Nat → Bool} (l : List α) (h : ∀ i < l.length, p i = q i) :
    dropP p l = dropP q l := by
  induction l generalizing p q with
  | nil => rfl
  | cons a l ih =>
    rw [dropP, dropP, h 0 (by simp), ih (fun i hi => h (i + 1) (by simpa using hi))]

/-- Removing one more position, in front of all those removed so far. -/
theorem dropP_eraseIdx (p : Nat → Bool) (i : Nat) (l : List α) (hp : ∀ j ≤ i, p j = false)
    (hi : i < l.length) :
    i < (dropP p l).length ∧ (dropP p l).eraseIdx i = dropP (fun j => j == i || p j) l := by
  induction l generalizing p i with
  | nil => simp at hi
  | cons a l ih =>
    rw [dropP, hp 0 (by omega)]
    cases i with
    | zero =>
      refine ⟨by simp, ?_⟩
      simp only [Bool.false_eq_true, if_false, List.singleton_append, List.eraseIdx_cons_zero, dropP,
        beq_self_eq_true, Bool.true_or, if_true, List.nil_append]
      apply dropP_congr
      intro i _
      simp
    | succ i =>
      obtain ⟨h1, h2⟩ := ih (fun j => p (j + 1)) i (fun j hj => hp (j + 1) (by omega)) (by simpa using hi)
      refine ⟨by simpa using h1, ?_⟩
      have e0 : ((0 : Nat) == i + 1 || p 0) = false := by simp [hp 0]
      simp only [Bool.false_eq_true, if_false, List.singleton_append, List.eraseIdx_cons_succ, dropP, e0, h2]
      congr 1
      apply dropP_congr
      intro j _
      simp

theorem removeAt_eq (l : List α) (i : Nat) (h : i < l.length) : removeAt l i = .ok (without [i] l) := by
  have h2 := (dropP_eraseIdx (fun _ => false) i l (by simp) h).2
  rw [dropP_none] at h2
  rw [removeAt, if_pos h, h2, without_eq]
  congr 2

theorem removeAll_eq (l : List α) (is : List Nat) (hs : is.Pairwise (· < ·)) (h : ∀ i ∈ is, i < l.length) :
    removeAll l is = .ok (without is l) := by
  induction is with
  | nil => rw [without_nil]; rfl
  | cons i is ih =>
    rw [List.pairwise_cons] at hs
    rw [removeAll, ih hs.2 (fun j hj => h j (by simp [hj])), Res.ok_bind, without_eq]
    obtain ⟨h1, h2⟩ := dropP_eraseIdx is.contains i l (fun j hj => by
      rw [Bool.eq_false_iff]
      intro hc
      have := hs.1 j (by simpa using hc)
      omega) (h i (by simp))
    rw [removeAt, if_pos h1, h2, without_eq]
    congr 2

theorem without_length_one (i : Nat) (l : List α) (h : i < l.length) :
    (without [i] l).length = l.length - 1 := by
  have := removeAt_eq l i h
  rw [removeAt, if_pos h] at this
  rw [← Res.ok.inj this, List.length_eraseIdx_of_lt h]

theorem dropP_length (p : Nat → Bool) (l : List α) (l' : List V) (h : l.length = l'.length) :
    (dropP p l).length = (dropP p l').length := by
  induction l generalizing p l' with
  | nil => cases l' with
    | nil => rfl
    | cons _ _ => simp at h
  | cons a l ih => cases l' with
    | nil => simp at h
    | cons b l' =>
      simp only [dropP, List.length_append]
      rw [ih _ l' (by simpa using h)]
      split <;> rfl

theorem without_length (gone : List Nat) (l : List α) (l' : List V) (h : l.length = l'.length) :
    (without gone l).length = (without gone l').length := by
  rw [without_eq, without_eq]; exact dropP_length _ _ _ h

theorem mem_dropP {p : Nat → Bool} {l : List α} {a : α} :
    a ∈ dropP p l ↔ ∃ i, l[i]? = some a ∧ p i = false := by
  induction l generalizing p with
  | nil => simp [dropP]
  | cons b l ih =>
    rw [dropP, List.mem_append, ih]
    constructor
    · rintro (h | ⟨i, h, hp⟩)
      · refine ⟨0, ?_⟩
        cases h0 : p 0 <;> simp_all
      · exact ⟨i + 1, by simpa using h, hp⟩
    · rintro ⟨i, h, hp⟩
      cases i with
      | zero => left; simp_all
      | succ i => right; exact ⟨i, by simpa using h, hp⟩

/-- Filtering out a value does not notice whether its position was removed before. -/
theorem dropP_filter (p : Nat → Bool) (q : α → Bool) (l : List α)
    (h : ∀ i a, l[i]? = some a → p i = true → q a = false) : (dropP p l).filter q = l.filter q := by
  induction l generalizing p with
  | nil => rfl
  | cons a l ih =>
    rw [dropP, List.filter_append, ih _ (fun i b hb hp => h (i + 1) b (by simpa using hb) hp), List.filter_cons]
    cases h0 : p 0 with
    | false => cases hq : q a <;> simp [hq]
    | true => simp [h 0 a (by simp) h0]

/-! ### Sorting -/

theorem insertNat_sorted (x : Nat) (l : List Nat) (h : ∀ y ∈ l, x < y) : insertNat x l = x :: l := by
  cases l with
  | nil => rfl
  | cons y l => rw [insertNat, if_pos (Nat.le_of_lt (h y (by simp)))]

theorem sortNat_sorted (l : List Nat) (h : l.Pairwise (· < ·)) : sortNat l = l := by
  induction l with
  | nil => rfl
  | cons x l ih =>
    rw [List.pairwise_cons] at h
    rw [sortNat, ih h.2, insertNat_sorted x l h.1]

/-! ### Binding -/

theorem bind_join {st : Style} (l : List String) {t : Txt} {args : List V} {b : List (BSym V)}
    (h : bind st t args = some b) : bind st (t ++ join "," l) args = some (b ++ namesB l) := by
  unfold join
  induction l generalizing t b with
  | nil => simpa [joinTxt, namesB, comma, List.intercalate] using h
  | cons c ks ih =>
    cases ks with
    | nil =>
      have := bind_tx h c
      simpa [joinTxt, namesB, comma, List.intercalate] using this
    | cons d ks =>
      have := ih (bind_tx (bind_tx h c) ",")
      simpa [joinTxt, namesB, comma, List.intercalate] using this

theorem comma_snoc (l : List (List (BSym V))) (x : List (BSym V)) :
    comma (l ++ [x]) = comma l ++ (if l.length = 0 then [] else bs ",") ++ x := by
  cases l with
  | nil => simp [comma, List.intercalate]
  | cons a l =>
    simp only [comma, List.cons_append, intercalate_restText]
    simp [restText]

theorem bind_vars {st : Style} (off : Nat) (vs : List V) {t : Txt} {args : List V} {b : List (BSym V)}
    (hl : args.length = off) (h : bind st t args = some b) :
    bind st (t ++ vars st off vs.length) (args ++ vs) = some (b ++ comma (vs.map fun v => [.val v])) := by
  induction vs using List.reverseRecOn with
  | nil => simpa [vars, comma, List.intercalate] using h
  | append_singleton vs v ih =>
    rw [List.length_append, List.length_singleton, vars, List.map_append, List.map_singleton, comma_snoc,
      List.length_map]
    have ho : OneVal st (args ++ vs).length [st.var (off + vs.length + 1)] v [.val v] := by
      have := oneVal_var st (args ++ vs).length v
      rw [List.length_append, hl] at this ⊢
      exact this
    by_cases hv : vs.length = 0
    · have := bind_val ih ho
      simpa [hv, List.append_assoc] using this
    · have := bind_val (bind_tx ih ",") ho
      simpa [hv, List.append_assoc] using this

theorem varsFrom1_eq (st : Style) (n : Nat) (h : n ≠ 0) : varsFrom1 st n = vars st 0 n := by
  unfold varsFrom1
  rw [Nat.max_eq_left (by omega)]

/-! ### Rows -/

theorem groupOk_gen (st : Style) (n : Nat) (hn : 0 < n) : GroupOk V st n (Gen.insertPlaceholders st n) :=
  fun row vs t args b hl hv h => row_binds st n row vs hv hn t args b hl h

theorem groupOk_static (n : Nat) (hn : 0 < n) :
    GroupOk V .anon n (fun _ => tx "(" ++ (Gen.repeatVar n).drop 1 ++ tx ")") :=
  fun row vs t args b hl hv h => row_binds .anon n row vs hv hn t args b hl h

/-- The values of a record as the row loop takes them. -/
def taken (m : Mdl R V) (drop : Option Nat) (r : R) : Res (List V) :=
  match drop with
  | some k => removeAt (m.values r) k
  | none => .ok (m.values r)

theorem rowsLoop_cons (m : Mdl R V) (ph : Nat → Txt) (drop : Option Nat) (i : Nat) (r : R) (rs : List R) :
    rowsLoop m ph drop i (r :: rs) = (do
      let vs ← taken m drop r
      let (t, as) ← rowsLoop m ph drop (i + 1) rs
      .ok ((if i > 0 then tx "," else []) ++ ph i ++ t, vs ++ as)) := by
  cases drop <;> rfl

theorem rowsLoop_ok {st : Style} (m : Mdl R V) (ph : Nat → Txt) (drop : Option Nat) (n : Nat)
    (row : R → List V) (hg : GroupOk V st n ph) (rs : List R)
    (hr : ∀ r ∈ rs, taken m drop r = .ok (row r) ∧ (row r).length = n) (i : Nat) :
    ∃ t, rowsLoop m ph drop i rs = .ok (t, (rs.map row).flatten) ∧
      ∀ (pre : Txt) (args : List V) (b : List (BSym V)), args.length = i * n → bind st pre args = some b →
        bind st (pre ++ t) (args ++ (rs.map row).flatten) =
          some (b ++ commaFrom i ((rs.map row).map rowB)) := by
  induction rs generalizing i with
  | nil => exact ⟨[], rfl, fun pre args b _ h => by simpa [commaFrom_nil] using h⟩
  | cons r rs ih =>
    obtain ⟨h1, h2⟩ := hr r (by simp)
    obtain ⟨t, ht, hb⟩ := ih (fun r h => hr r (by simp [h])) (i + 1)
    refine ⟨_, by rw [rowsLoop_cons, h1, ht]; rfl, fun pre args b hl h => ?_⟩
    rw [List.map_cons, List.map_cons, commaFrom_cons, List.flatten_cons]
    have hlen : (args ++ row r).length = (i + 1) * n := by
      rw [List.length_append, hl, h2, Nat.succ_mul]
    by_cases hi : i = 0
    · subst hi
      have := hb _ _ _ hlen (hg 0 (row r) _ _ _ hl h2 h)
      simpa using this
    · have := hb _ _ _ hlen (hg i (row r) _ _ _ hl h2 (bind_tx h ","))
      simpa [hi, Nat.pos_of_ne_zero hi] using this

/-! ### Update lists -/

theorem joinTxt_cons (x : Txt) (l : List Txt) :
    joinTxt (tx ",") (x :: l) = x ++ l.flatMap (tx "," ++ ·) := by
  induction l generalizing x with
  | nil => simp [joinTxt]
  | cons y l ih => simp [joinTxt, ih]

theorem setLoop_false (item : String → String) (om cols : List String) :
    setLoop item om false cols = ((cols.filter (· ∉ om)).map fun c => tx (item c)).flatMap (tx "," ++ ·) := by
  induction cols with
  | nil => rfl
  | cons c cs ih =>
    rw [setLoop]
    by_cases h : c ∈ om
    · simp [h, ih]
    · simp [h, ih]

theorem setLoop_true (item : String → String) (om cols : List String) :
    setLoop item om true cols = join "," ((cols.filter (· ∉ om)).map item) := by
  induction cols with
  | nil => rfl
  | cons c cs ih =>
    rw [setLoop]
    by_cases h : c ∈ om
    · simp [h, ih]
    · rw [if_neg h, setLoop_false]
      simp [h, join, joinTxt_cons, Function.comp_def]

/-! ### Assignments -/

theorem bind_assigns {st : Style} (cols : List String) (vals : List V) (hl : vals.length = cols.length)
    (i : Nat) {t : Txt} {args : List V} {b : List (BSym V)} (ha : args.length = i)
    (h : bind st t args = some b) :
    bind st (t ++ assigns st i cols) (args ++ vals) =
      some (b ++ commaFrom i ((cols.zip vals).map fun p => bs p.1 ++ bs " = " ++ [.val p.2])) := by
  induction cols generalizing vals i t args b with
  | nil =>
    cases vals with
    | nil => simpa [assigns, commaFrom_nil] using h
    | cons _ _ => simp at hl
  | cons c cols ih =>
    cases vals with
    | nil => simp at hl
    | cons v vals =>
      rw [List.zip_cons_cons, List.map_cons, commaFrom_cons, assigns]
      have ho : OneVal st args.length [st.var (i + 1)] v [.val v] := by
        rw [ha]; exact oneVal_var st i v
      by_cases hi : i = 0
      · subst hi
        have := ih vals (by simpa using hl) 1 (by simp [ha]) (bind_val (bind_tx (bind_tx h c) " = ") ho)
        simpa using this
      · have := ih vals (by simpa using hl) (i + 1) (by simp [ha])
          (bind_val (bind_tx (bind_tx (bind_tx h ",") c) " = ") ho)
        simpa [hi, Nat.pos_of_ne_zero hi] using this

/-! ### Counting parameters -/

/-- Number of anonymous placeholders. -/
def anons (t : Txt) : Nat := t.countP (· == .anon)

@[simp] theorem anons_append (t u : Txt) : anons (t ++ u) = anons t + anons u := by simp [anons]

@[simp] theorem anons_tx (s : String) : anons (tx s) = 0 := by simp [anons, tx, List.countP_eq_zero]

theorem bindAnon_anons {t : Txt} {args : List V} {b : List (BSym V)} (h : bindAnon t args = some b) :
    args.length = anons t := by
  induction t generalizing args b with
  | nil => cases args with
    | nil => rfl
    | cons _ _ => simp [bindAnon] at h
  | cons s t ih =>
    cases s with
    | ch c =>
      simp only [bindAnon, Option.map_eq_some_iff] at h
      obtain ⟨_, h, -⟩ := h
      simpa [anons] using ih h
    | anon =>
      cases args with
      | nil => simp [bindAnon] at h
      | cons v args =>
        simp only [bindAnon, Option.map_eq_some_iff] at h
        obtain ⟨_, h, -⟩ := h
        simpa [anons] using ih h
    | num n => simp [bindAnon] at h

theorem bindAnon_none {t : Txt} {args : List V} (h : args.length ≠ anons t) : bindAnon t args = none := by
  cases hb : bindAnon t args with
  | none => rfl
  | some b => exact absurd (bindAnon_anons hb) h

@[simp] theorem anons_join (l : List String) : anons (join "," l) = 0 := by
  unfold join
  induction l with
  | nil => rfl
  | cons c l ih =>
    cases l with
    | nil => simp [joinTxt]
    | cons d l => simpa [joinTxt] using ih

theorem anons_repeatVar (n : Nat) : anons (Gen.repeatVar n) = n := by
  induction n with
  | zero => rfl
  | succ n ih =>
    have : anons [Sym.anon] = 1 := rfl
    rw [Gen.repeatVar, anons_append, anons_append, ih, anons_tx, this]; omega

theorem anons_repeatVar1 (n : Nat) : anons ((Gen.repeatVar n).drop 1) = n := by
  cases n with
  | zero => rfl
  | succ n =>
    have e : (Gen.repeatVar (n + 1)).drop 1 = [.anon] ++ Gen.repeatVar n := by
      simp [Gen.repeatVar, tx]
    rw [e, anons_append, anons_repeatVar]
    simp [anons]; omega

theorem anons_vars (off n : Nat) : anons (vars .anon off n) = n := by
  induction n with
  | zero => rfl
  | succ n ih =>
    rw [vars, anons_append, anons_append, ih]
    split <;> simp [anons, Style.var, tx]

theorem anons_assigns (i : Nat) (cols : List String) : anons (assigns .anon i cols) = cols.length := by
  induction cols generalizing i with
  | nil => rfl
  | cons c cols ih =>
    rw [assigns]
    simp only [anons_append, ih, anons_tx]
    split <;> simp [anons, Style.var, tx] <;> omega

@[simp] theorem anons_setLoop (item : String → String) (om cols : List String) :
    anons (setLoop item om true cols) = 0 := by rw [setLoop_true, anons_join]

/-- The row loop, whatever the values: the texts and the number of arguments. -/
theorem rowsLoop_count (m : Mdl R V) (ph : Nat → Txt) (drop : Option Nat) (k : Nat)
    (hk : ∀ r vs, taken m drop r = .ok vs → vs.length = k) (rs : List R) (i : Nat) (t : Txt) (as : List V)
    (h : rowsLoop m ph drop i rs = .ok (t, as)) :
    as.length = rs.length * k ∧
      t = ((rs.zipIdx i).flatMap fun p => (if p.2 > 0 then tx "," else []) ++ ph p.2) := by
  induction rs generalizing i t as with
  | nil => cases h; simp
  | cons r rs ih =>
    rw [rowsLoop_cons, Res.bind_eq_ok] at h
    obtain ⟨vs, h1, h⟩ := h
    rw [Res.bind_eq_ok] at h
    obtain ⟨⟨t', as'⟩, h2, h⟩ := h
    cases h
    obtain ⟨e1, e2⟩ := ih (i + 1) t' as' h2
    refine ⟨?_, ?_⟩
    · rw [List.length_append, hk r vs h1, e1, List.length_cons, Nat.succ_mul]; omega
    · rw [List.zipIdx_cons, List.flatMap_cons, e2]

theorem rowsLoop_anons (m : Mdl R V) (u : Txt) (drop : Option Nat) (rs : List R) (i : Nat) (t : Txt)
    (as : List V) (h : rowsLoop m (fun _ => u) drop i rs = .ok (t, as)) : anons t = rs.length * anons u := by
  induction rs generalizing i t as with
  | nil => cases h; simp [anons]
  | cons r rs ih =>
    rw [rowsLoop_cons, Res.bind_eq_ok] at h
    obtain ⟨vs, h1, h⟩ := h
    rw [Res.bind_eq_ok] at h
    obtain ⟨⟨t', as'⟩, h2, h⟩ := h
    cases h
    have := ih (i + 1) t' as' h2
    rw [anons_append, anons_append, this, List.length_cons, Nat.succ_mul]
    split
    · rw [anons_tx]; omega
    · have : anons [] = 0 := rfl
      rw [this]; omega

/-! ### Lengths -/

theorem bind_length {st : Style} {t : Txt} {args : List V} {b : List (BSym V)} (h : bind st t args = some b) :
    b.length = t.length := by
  cases st with
  | anon =>
    replace h : bindAnon t args = some b := h
    induction t generalizing args b with
    | nil => cases args <;> simp [bindAnon] at h; subst h; rfl
    | cons s t ih =>
      cases s with
      | ch c =>
        simp only [bindAnon, Option.map_eq_some_iff] at h
        obtain ⟨_, h, rfl⟩ := h
        simpa using ih h
      | anon =>
        cases args with
        | nil => simp [bindAnon] at h
        | cons v args =>
          simp only [bindAnon, Option.map_eq_some_iff] at h
          obtain ⟨_, h, rfl⟩ := h
          simpa using ih h
      | num n => simp [bindAnon] at h
  | numbered =>
    simp only [bind, bindNum] at h
    split at h
    · clear * - h
      induction t generalizing b with
      | nil => simp [substNum] at h; subst h; rfl
      | cons s t ih =>
        cases s with
        | ch c =>
          simp only [substNum, Option.map_eq_some_iff] at h
          obtain ⟨_, h, rfl⟩ := h
          simpa using ih h
        | anon => simp [substNum] at h
        | num n =>
          cases n with
          | zero => simp [substNum] at h
          | succ k =>
            simp only [substNum] at h
            split at h
            · next h2 => cases h; simpa using ih h2
            · cases h
    · cases h

theorem badTuple_length {cols : List String} {n i k : Nat} {q : Txt} (h : badTuple cols n i k = .ok q) :
    5 * k ≤ q.length := by
  induction k generalizing i q with
  | zero => simp
  | succ k ih =>
    rw [badTuple, Res.bind_eq_ok] at h
    obtain ⟨c, -, h⟩ := h
    rw [Res.bind_eq_ok] at h
    obtain ⟨r, h2, h⟩ := h
    cases h
    have := ih h2
    have e1 : (tx ",").length = 1 := rfl
    have e2 : (tx " = ").length = 3 := rfl
    simp only [List.length_append, e1, e2, List.length_singleton]
    omega

theorem vars_length (st : Style) (off n : Nat) : (vars st off (n + 1)).length = 2 * n + 1 := by
  induction n with
  | zero => rfl
  | succ n ih =>
    have e1 : (tx ",").length = 1 := rfl
    rw [vars, List.length_append, List.length_append, ih, if_neg (by omega), e1]
    simp; omega

end Verif.Spec.Helpers

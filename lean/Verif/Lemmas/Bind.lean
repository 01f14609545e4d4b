import Verif.Spec.Bind

/-!
# Lemmas about binding
-/

namespace Verif.Spec

variable {V : Type}

@[simp] theorem tx_append (a b : String) : tx (a ++ b) = tx a ++ tx b := by
  simp [tx, String.toList_append]

@[simp] theorem bs_append (a b : String) : (bs (a ++ b) : List (BSym V)) = bs a ++ bs b := by
  simp [bs, String.toList_append]

@[simp] theorem tx_empty : tx "" = [] := rfl
@[simp] theorem bs_empty : (bs "" : List (BSym V)) = [] := rfl

theorem bindAnon_append (t u : Txt) (a b : List V) (x y : List (BSym V))
    (h : bindAnon t a = some x) (h' : bindAnon u b = some y) :
    bindAnon (t ++ u) (a ++ b) = some (x ++ y) := by
  induction t generalizing a x with
  | nil =>
    cases a with
    | nil => simp [bindAnon] at h; subst h; simpa using h'
    | cons => simp [bindAnon] at h
  | cons s t ih =>
    cases s with
    | ch c =>
      simp only [bindAnon, Option.map_eq_some_iff] at h
      obtain ⟨z, hz, rfl⟩ := h
      simp [bindAnon, ih a z hz]
    | anon =>
      cases a with
      | nil => simp [bindAnon] at h
      | cons v a =>
        simp only [bindAnon, Option.map_eq_some_iff] at h
        obtain ⟨z, hz, rfl⟩ := h
        simp [bindAnon, ih a z hz]
    | num n => simp [bindAnon] at h

theorem bindAnon_tx (s : String) : bindAnon (tx s) ([] : List V) = some (bs s) := by
  unfold tx bs
  induction s.toList with
  | nil => rfl
  | cons c l ih => simp [bindAnon, ih]

theorem substNum_tx (args : List V) (s : String) : substNum args (tx s) = some (bs s) := by
  unfold tx bs
  induction s.toList with
  | nil => rfl
  | cons c l ih => simp [substNum, ih]

theorem substNum_extend (args more : List V) (t : Txt) (x : List (BSym V))
    (h : substNum args t = some x) : substNum (args ++ more) t = some x := by
  induction t generalizing x with
  | nil => simpa [substNum] using h
  | cons s t ih =>
    cases s with
    | ch c =>
      simp only [substNum, Option.map_eq_some_iff] at h ⊢
      obtain ⟨z, hz, rfl⟩ := h
      exact ⟨z, ih z hz, rfl⟩
    | anon => simp [substNum] at h
    | num n =>
      cases n with
      | zero => simp [substNum] at h
      | succ k =>
        simp only [substNum] at h ⊢
        cases hk : args[k]? with
        | none => simp [hk] at h
        | some v =>
          cases hs : substNum args t with
          | none => simp [hk, hs] at h
          | some r =>
            rw [List.getElem?_append_left (List.getElem?_eq_some_iff.1 hk).1, hk, ih r hs]
            simpa [hk, hs] using h

theorem substNum_append (args : List V) (t u : Txt) (x y : List (BSym V))
    (h : substNum args t = some x) (h' : substNum args u = some y) :
    substNum args (t ++ u) = some (x ++ y) := by
  induction t generalizing x with
  | nil => simp [substNum] at h; subst h; simpa using h'
  | cons s t ih =>
    cases s with
    | ch c =>
      simp only [substNum, Option.map_eq_some_iff] at h
      obtain ⟨z, hz, rfl⟩ := h
      simp [substNum, ih z hz]
    | anon => simp [substNum] at h
    | num n =>
      cases n with
      | zero => simp [substNum] at h
      | succ k =>
        simp only [substNum] at h
        cases hk : args[k]? with
        | none => simp [hk] at h
        | some v =>
          cases hs : substNum args t with
          | none => simp [hk, hs] at h
          | some r =>
            simp [hk, hs] at h
            simp [substNum, hk, ih r hs, ← h]

theorem nums_append (t u : Txt) : nums (t ++ u) = nums t ++ nums u := by
  induction t with
  | nil => rfl
  | cons s t ih => cases s <;> simp [nums, ih]

theorem nums_tx (s : String) : nums (tx s) = [] := by
  unfold tx
  induction s.toList with
  | nil => rfl
  | cons c l ih => simp [nums, ih]

/-- In an accepted text the numbers are exactly those of the arguments. -/
theorem bindNum_nums {t : Txt} {args : List V} {b : List (BSym V)} (h : bindNum t args = some b) (n : Nat) :
    n ∈ nums t ↔ 1 ≤ n ∧ n ≤ args.length := by
  unfold bindNum at h
  split at h
  · next hu =>
    constructor
    · clear hu
      induction t generalizing b with
      | nil => simp [nums]
      | cons s t ih =>
        cases s with
        | ch c =>
          simp only [substNum, Option.map_eq_some_iff] at h
          obtain ⟨z, hz, rfl⟩ := h
          exact ih hz
        | anon => simp [substNum] at h
        | num m =>
          cases m with
          | zero => simp [substNum] at h
          | succ k =>
            simp only [substNum] at h
            cases hk : args[k]? with
            | none => simp [hk] at h
            | some v =>
              cases hs : substNum args t with
              | none => simp [hk, hs] at h
              | some r =>
                intro hn
                rcases List.mem_cons.1 hn with rfl | hn
                · have := (List.getElem?_eq_some_iff.1 hk).1
                  omega
                · exact ih hs hn
    · rintro ⟨h1, h2⟩
      have := hu (n - 1) (by omega)
      rwa [show n - 1 + 1 = n by omega] at this
  · cases h

/-- A statement prefix whose placeholders are consistent with its arguments; in the numbered style
the counter `pos` is the number of arguments so far and the placeholders are numbered in order. -/
def Aligned (st : Style) (t : Txt) (pos : Nat) (args : List V) (b : List (BSym V)) : Prop :=
  bind st t args = some b ∧
    (st = .numbered → pos = args.length ∧ nums t = List.range' 1 args.length)

theorem aligned_nil (st : Style) : Aligned st [] 0 ([] : List V) [] := by
  cases st <;> simp [Aligned, bind, bindAnon, bindNum, substNum, nums]

theorem Aligned.tx {st : Style} {t : Txt} {pos : Nat} {args : List V} {b : List (BSym V)}
    (h : Aligned st t pos args b) (s : String) :
    Aligned st (t ++ tx s) pos args (b ++ bs s) := by
  refine ⟨?_, fun e => ⟨(h.2 e).1, by rw [nums_append, nums_tx, (h.2 e).2]; simp⟩⟩
  cases st with
  | anon =>
    have := bindAnon_append t (Verif.tx s) args [] b (bs s) h.1 (bindAnon_tx s)
    simpa [bind] using this
  | numbered =>
    have h1 := h.1
    simp only [bind, bindNum] at h1 ⊢
    split at h1
    · next hm =>
      rw [if_pos (by simpa [nums_append, nums_tx] using hm)]
      exact substNum_append _ _ _ _ _ h1 (substNum_tx _ _)
    · cases h1

theorem Aligned.var {st : Style} {t : Txt} {pos : Nat} {args : List V} {b : List (BSym V)}
    (h : Aligned st t pos args b) (v : V) :
    Aligned st (t ++ [st.var (pos + 1)]) (pos + 1) (args ++ [v]) (b ++ [.val v]) := by
  refine ⟨?_, ?_⟩
  · cases st with
    | anon => exact bindAnon_append t [.anon] args [v] b [.val v] h.1 (by simp [bindAnon])
    | numbered =>
      have h1 := h.1
      have h2 := (h.2 rfl).1
      simp only [bind, bindNum] at h1 ⊢
      split at h1
      · next hm =>
        rw [if_pos (by
          intro k hk
          rw [nums_append, (h.2 rfl).2]
          simp only [List.length_append, List.length_singleton] at hk
          simp only [List.mem_append, List.mem_range', Style.var, nums, List.mem_singleton, h2]
          by_cases hk' : k = args.length
          · right; omega
          · left; exact ⟨k, by omega, by omega⟩)]
        refine substNum_append _ _ _ _ _ (substNum_extend _ _ _ _ h1) ?_
        simp [Style.var, substNum, h2]
      · cases h1
  · intro e
    subst e
    obtain ⟨h2, h3⟩ := h.2 rfl
    refine ⟨by simp [h2], ?_⟩
    rw [nums_append, h3, List.length_append, List.length_singleton, List.range'_concat]
    simp [Style.var, nums, h2, Nat.add_comm]

end Verif.Spec

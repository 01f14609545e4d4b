import Verif.Props.Fault

/-!
# Property C103: calls that are made again
-/

namespace Verif.Props

open Verif Verif.Gen Verif.Spec Verif.Spec.Gen Verif.Spec.Sql Verif.Spec.Store Verif.Store Verif.Spec.Program Verif.Program

variable {F X V : Type} [DecidableEq F] [DecidableEq X] [DecidableEq V] {E : Env F X V} {Ok : F → X → Prop} {K : Compare V} {br : Brand}

/-- What an operation leaves under its own key. -/
private def eff : Spec.Store.Op F X → Option (F → X) → Option (F → X)
  | .insert r, v => some (v.getD r)
  | .find _, v => v
  | .update r, v => v.map fun _ => r
  | .delete _, _ => none

omit [DecidableEq F] [DecidableEq X] in
private theorem eff_eff (o : Spec.Store.Op F X) (v : Option (F → X)) : eff o (eff o v) = eff o v := by
  cases o <;> cases v <;> rfl

private theorem act_eff (t : Table F) (o : Spec.Store.Op F X) (m : Map F X) :
    (act t o m).2 (keyOf t o.record) = eff o (m (keyOf t o.record)) := by
  cases o with
  | insert r =>
    simp only [act, eff, Op.record]
    cases hm : m (keyOf t r) <;> simp [put, hm]
  | find r =>
    simp only [act, eff, Op.record]
    cases hm : m (keyOf t r) <;> simp [hm]
  | update r =>
    simp only [act, eff, Op.record]
    cases hm : m (keyOf t r) <;> simp [put, hm]
  | delete r => simp [act, eff, Op.record, put]

private theorem act_answers (t : Table F) (o : Spec.Store.Op F X) (m : Map F X) : (Reply.one (act t o m).1).isFailure = false := by
  cases o <;> simp only [act] <;> (try split) <;> rfl

private theorem act_of_Act {t : Table F} (ha : t.autoCol = none) {o : Spec.Store.Op F X} {m m' : Map F X} {out : Out (F → X)}
    (h : Act t o m out m') : (out, m') = act t o m := by
  unfold Act at h
  rw [ha] at h
  cases o <;> exact h

section
variable {I C : Type} [DecidableEq I] [DecidableEq C] {O : I → Comp F X} {t : I → Table F} {zero : I → F → X}
  {clients : C → Client I F X}

private def Settled (h : Histories C F X) (c : C) (o : Spec.Store.Op F X) (v w : Option (F → X)) : Prop :=
  if (h c).all Reply.isFailure then w = v ∨ w = eff o v else w = eff o v

private theorem attempts_insist {g : Cfg} {i : I} (ha : (t i).autoCol = none) {c : C} {o : Spec.Store.Op F X}
    (hc : clients c = insist i (.one o)) {cs : List C} {h h' : Histories C F X} {M M' : I → Map F X}
    (hr : Attempts g O t zero clients cs h M h' M')
    (hs : ∀ d ≠ c, ∀ a, Comes g O t zero clients h M d i a → Spares (O i) (t i) (keyOf (t i) o.record) a)
    {v : Option (F → X)} (h0 : Settled h c o v (M i (keyOf (t i) o.record))) : Settled h' c o v (M' i (keyOf (t i) o.record)) := by
  induction hr with
  | nil => exact h0
  | idle _ _ ih => exact ih hs h0
  | @call d cs h M h' M' j a reply m hcl hdo _ ih =>
    refine ih (fun d hd b hb => hs d hd b (comes_after hcl hdo hb)) ?_
    by_cases hd : d = c
    · subst hd
      rw [hc] at hcl
      simp only [insist] at hcl
      split at hcl
      · next hall =>
        simp only [Option.some.injEq, Prod.mk.injEq] at hcl
        obtain ⟨rfl, rfl⟩ := hcl
        unfold Settled at h0 ⊢
        rw [if_pos hall] at h0
        simp only [heard, if_true, List.all_append, hall, Bool.true_and, List.all_cons, List.all_nil, Bool.and_true,
          Spec.Program.change]
        have key : ∀ {out m'}, Act (t i) o (M i) out m' → (out, m') = act (t i) o (M i) ∧
            m' (keyOf (t i) o.record) = eff o v := by
          intro out m' hA
          have e := act_of_Act ha hA
          refine ⟨e, ?_⟩
          have e2 : m' = (act (t i) o (M i)).2 := by rw [← e]
          rw [e2, act_eff]
          rcases h0 with h0 | h0 <;> rw [h0]
          exact eff_eff o v
        cases hdo with
        | does hD =>
          cases hD with
          | one hA =>
            obtain ⟨e, e2⟩ := key hA
            have e3 := act_answers (t i) o (M i)
            rw [← e] at e3
            rw [if_neg (by simp [e3])]
            exact e2
        | never =>
          rw [if_pos (by rfl)]
          exact h0
        | lost hD =>
          cases hD with
          | one hA =>
            rw [if_pos (by rfl)]
            exact .inr (key hA).2
      · cases hcl
    · have hh : heard h d reply c = h c := by simp [heard, Ne.symm hd]
      have hstep : Spec.Program.change M j m i (keyOf (t i) o.record) = M i (keyOf (t i) o.record) := by
        by_cases hj : i = j
        · subst hj
          simp only [Spec.Program.change, if_true]
          have hsp := hs d hd a ⟨[], h, M, .nil, hcl⟩
          cases hdo with
          | does hD => exact does_spares hD hsp (.inr ha)
          | never => rfl
          | lost hD => exact does_spares hD hsp (.inr ha)
        · simp [Spec.Program.change, hj]
      unfold Settled
      rw [hh, hstep]
      exact h0

/-- C103, for a client that makes the same call for one record again until it gets something else than an error of the
connection, where the program gives the keys and the others keep away from the record: when it is done, the record is as after
one call, however often the call was made; before, it is as after one call or none. -/
theorem C103_insist_partial (hg : Meant E.g br) (hr : ∀ i, Ready E Ok K (O i) (t i))
    (hd : ∀ i j, tableName E.D (t i) = tableName E.D (t j) → i = j)
    (cs : List (C × Fault)) (M : I → Map F X)
    (hc : ∀ c i a, Comes E.g O t zero clients (fun _ => []) M c i a → Sound E Ok br (t i) a)
    (hw : ∀ x ∈ cs, ∀ i a, Comes E.g O t zero clients (fun _ => []) M x.1 i a → Whole E.g x.2 a)
    (σ : Sql.Store V) (hk : ∀ i, Keeps E Ok (t i) (M i) σ) (i : I) (ha : (t i).auto = none) (c : C) (o : Spec.Store.Op F X)
    (hi : clients c = insist i (.one o)) (hgood : Good Ok (t i) o.record)
    (hs : ∀ d ≠ c, ∀ a, Comes E.g O t zero clients (fun _ => []) M d i a → Spares (O i) (t i) (keyOf (t i) o.record) a) :
    let x := playOn E br K t zero clients cs (fun _ => []) σ
    let found := (findByPK E (t i) o.record x.2).1
    let once := (act (t i) (.find o.record) (act (t i) o (M i)).2).1
    ((∃ reply ∈ x.1 c, reply.isFailure = false) → found = once) ∧
      (found = once ∨ found = (act (t i) (.find o.record) (M i)).1) := by
  intro x found once
  obtain ⟨M', h1, h2, -⟩ := C103_serial_partial (zero := zero) hg hr hd cs (fun _ => []) M hc hw σ hk
  have h3 := attempts_insist (by simp [Table.autoCol, ha]) hi h1 hs (v := M i (keyOf (t i) o.record)) (by simp [Settled])
  obtain ⟨rows, hσ, hh⟩ := h2 i
  obtain ⟨h4, -⟩ := find_ok (hr i).setup.toSetup hh hσ (r := o.record) hgood
  have e1 : ∀ m m' : Map F X, m (keyOf (t i) o.record) = m' (keyOf (t i) o.record) →
      (act (t i) (.find o.record) m).1 = (act (t i) (.find o.record) m').1 := by
    intro m m' e
    simp only [act, e]
    cases m' (keyOf (t i) o.record) <;> rfl
  have e2 : (act (t i) o (M i)).2 (keyOf (t i) o.record) = eff o (M i (keyOf (t i) o.record)) := act_eff _ _ _
  have e3 : found = (act (t i) (.find o.record) (M' i)).1 := congrArg Prod.fst h4
  unfold Settled at h3
  split at h3
  · next hall =>
    constructor
    · rintro ⟨reply, hm, hf⟩
      rw [List.all_eq_true] at hall
      rw [hall reply hm] at hf
      cases hf
    · rcases h3 with h3 | h3
      · exact .inr (e3.trans (e1 _ _ h3))
      · exact .inl (e3.trans (e1 _ _ (h3.trans e2.symm)))
  · have : found = once := e3.trans (e1 _ _ (h3.trans e2.symm))
    exact ⟨fun _ => this, .inl this⟩

end

end Verif.Props

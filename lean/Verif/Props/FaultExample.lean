import Verif.Props.FaultMore
import Verif.Props.FaultLost

/-!
# Property C103: cases
-/

namespace Verif.Props

open Verif Verif.Gen Verif.Spec Verif.Spec.Gen Verif.Spec.Sql Verif.Spec.Store Verif.Store Verif.Spec.Program Verif.Program

/-- The first client insists on storing person 7; the second changes everybody whose number is less than 5, and looks at the items. -/
def faultClients : Nat → Client Bool Nat Nat
  | 0, h => insist true (.one (.insert (storeRec 7 1 2))) h
  | 1, [] => some (true, .change { set := [(condName, 9)], where_ := some (.cmp .lt condId 5) })
  | 1, [_] => some (false, .first { where_ := some (.cmp .eq condGroup 6) })
  | _, _ => none

theorem faultSound : ∀ c h i a, faultClients c h = some (i, a) → Sound (condEnv true) (fun _ _ => True) .postgres (progTable i) a := by
  intro c h i a e
  have hg : ∀ t r, Good (fun (_ _ : Nat) => True) t r := fun _ _ _ _ => trivial
  have hm : ∀ i, ∀ c ∈ [condId, condName, condGroup], c ∈ (progTable i).columns := by
    intro i c hc
    simpa [progTable, storeUser, condId, condName, condGroup] using hc
  unfold faultClients at e
  split at e
  · simp only [insist] at e
    split at e <;> cases e
    exact ⟨hg _ _, by simp⟩
  · cases e
    refine ⟨⟨?_, ?_, by simp⟩, by simp, by simp, by simp [progTable, storeUser, pick, keyPos, condName], .inr ⟨rfl, rfl⟩⟩
    · intro p hp
      simp only [List.mem_cons, List.not_mem_nil, or_false] at hp
      subst hp
      exact ⟨hm _ _ (by simp), trivial⟩
    · rintro c e
      cases e
      exact ⟨hm _ _ (by simp), trivial⟩
  · cases e
    refine ⟨⟨by simp, ?_, by simp⟩, .inl rfl⟩
    rintro c e
    cases e
    exact ⟨hm _ _ (by simp), trivial⟩
  · cases e

theorem faultWhole : ∀ f c h i a, faultClients c h = some (i, a) → Whole (condEnv true).g f a := by
  intro f c h i a e
  unfold faultClients at e
  split at e
  · simp only [insist] at e
    split at e <;> cases e
    cases f <;> trivial
  · cases e; cases f <;> trivial
  · cases e; cases f <;> trivial
  · cases e

/-- C103 for these clients, however their connections fail. -/
example (cs : List (Nat × Fault)) :
    let x := playOn (condEnv true) .postgres condOrd progTable (fun _ _ => 0) faultClients cs (fun _ => []) progStart
    let found := (findByPK (condEnv true) (progTable true) (storeRec 7 1 2) x.2).1
    ((∃ reply ∈ x.1 0, reply.isFailure = false) → found = .ok (storeRec 7 1 2)) ∧ (found = .ok (storeRec 7 1 2) ∨ found = .noRows) := by
  have := C103_insist_partial (E := condEnv true) (Ok := fun _ _ => True) (K := condOrd) (br := .postgres) (O := fun _ => condComp)
    (t := progTable) (zero := fun _ _ => 0) (clients := faultClients) ⟨rfl, rfl⟩ progReady (by decide) cs (fun _ _ => none)
    (fun c i a ⟨_, h', _, _, e⟩ => faultSound c (h' c) i a e) (fun x _ i a ⟨_, h', _, _, e⟩ => faultWhole x.2 x.1 (h' x.1) i a e)
    progStart (fun i => by cases i <;> exact C90_empty _ _ _ _ rfl) true rfl 0 (.insert (storeRec 7 1 2)) rfl (fun _ _ => trivial) (by
      rintro d hd a ⟨_, h', _, _, e⟩
      unfold faultClients at e
      split at e
      · exact absurd rfl hd
      · cases e
        intro s hs hm
        have h1 := hm _ rfl
        have h2 : s 10 = 7 := by simpa [keyOf, progTable, storeUser, pick, keyPos, storeRec, Op.record] using hs
        simp [Cond.truth, condId, h2] at h1
        exact absurd h1 (by decide)
      · cases e
      · cases e)
  extract_lets x found once at this
  have h1 : once = .ok (storeRec 7 1 2) := by
    simp only [once, act, Op.record, Option.isSome_none, Bool.false_eq_true, if_false, put, if_true, load_self]
  have h2 : (act (progTable true) (.find (storeRec 7 1 2)) (fun _ => none)).1 = .noRows := rfl
  rw [h1] at this
  clear_value once
  exact this

/-- which calls fail, and who is there afterwards -/
def faultSee (cs : List (Nat × Fault)) : List (List Bool) × Option (List (List Nat)) :=
  let a := playOn (condEnv true) .postgres condOrd progTable (fun _ _ => 0) faultClients cs (fun _ => []) progStart
  ([0, 1].map fun c => (a.1 c).map Reply.isFailure, condAll (condEnv true) .postgres {} a.2)

/-- the answer to the first insert is lost, the second does not arrive, and the third finds the key taken -/
example : faultSee [(0, .after), (1, .before), (0, .before), (0, .fine), (0, .fine), (1, .fine)] =
    ([[true, true, false], [true, false]], some [[7, 1, 2]]) := by decide +kernel
/-- the row arrives, but the statement is undone: `InsertOne` returns an error and is called again -/
example : faultSee [(0, .cut 1 false), (0, .fine)] = ([[true, false], []], some [[7, 1, 2]]) := by decide +kernel

/-! ### Keys made up by the database -/

/-- Keys are one more than the greatest there is. -/
def faultEnv : Env Nat Nat (Option Nat) :=
  { condEnv true with gen := fun T => some (T.rows.foldr (fun row n => max n ((row "id".toList).getD 0)) 0 + 1) }

def faultTable : Table Nat := { storeUser "people" with auto := some 0 }

theorem faultReady : Ready faultEnv (fun _ _ => True) condOrd condComp faultTable := by
  have hs := condSetup true
  have hA := condAgrees (condEnv true) rfl rfl
  refine ⟨⟨⟨⟨(storeWF "").1, (storeWF "").2, (storeWF "").3, (storeWF "").4, by simp [faultTable, storeUser]⟩, rfl,
    ⟨hs.named.1, hs.named.2, hs.named.3⟩, ⟨hs.bare.1, hs.bare.2⟩, hs.plain, hs.names, by simp [faultTable, storeUser], hs.back, hs.keyed⟩,
    storeWritten _ _⟩, ⟨hA.isNil, hA.eq, hA.lt, hA.like, hA.before⟩, fun _ _ => .inl rfl, by simp [faultTable, storeUser],
    .inr ⟨⟨"id", 10, 0, false, none, none⟩, rfl, by decide, ?_⟩⟩
  intro rows
  refine ⟨_, trivial, rfl, rfl, ?_⟩
  intro row hrow
  have hle : ∀ l : List (Row (Option Nat)), row ∈ l →
      (row "id".toList).getD 0 ≤ l.foldr (fun row n => max n ((row "id".toList).getD 0)) 0 := by
    intro l
    induction l with
    | nil => simp
    | cons r l ih =>
      intro hm
      rcases List.mem_cons.1 hm with rfl | hm
      · exact Nat.le_max_right _ _
      · have := ih hm
        simp only [List.foldr_cons]
        omega
  have := hle rows hrow
  intro e
  have e' : row "id".toList = some (rows.foldr (fun row n => max n ((row "id".toList).getD 0)) 0 + 1) := e
  rw [e'] at this
  simp only [Option.getD_some] at this
  omega

example : faultTable.autoCol = some ⟨"id", 10, 0, false, none, none⟩ ∧
    Sound faultEnv (fun _ _ => True) .postgres faultTable (.one (.insert (storeRec 0 1 2))) :=
  ⟨rfl, fun _ _ => trivial, by simp⟩

/-- stored twice -/
example : condAll faultEnv .postgres {} (playOn faultEnv .postgres condOrd (fun _ : Unit => faultTable) (fun _ _ => 0)
      (fun _ : Unit => insist () (.one (.insert (storeRec 0 1 2)))) [((), .after), ((), .fine)] (fun _ => []) (storeOnly faultTable)).2 =
    some [[1, 1, 2], [2, 1, 2]] := by decide +kernel

/-! ### Answers that are cut -/

def faultCall (f : Fault) (a : Call Nat Nat) (σ : Sql.Store (Option Nat)) : Option (List (List Nat)) × Option (List (List Nat)) :=
  let x := callOn (condEnv true) .postgres condOrd f (progTable true) (fun _ => 0) a σ
  (progShow x.1, condAll (condEnv true) .postgres {} x.2)

/-- all rows arrive, and the statement is undone at the end: no error, and nothing is stored -/
example : faultCall (.cut 2 false) (.insert [storeRec 7 1 2, storeRec 8 3 4]) progStart = (some [[7, 1, 2], [8, 3, 4]], some []) ∧
    faultCall .fine (.insert [storeRec 7 1 2, storeRec 8 3 4]) progStart = (some [[7, 1, 2], [8, 3, 4]], some [[7, 1, 2], [8, 3, 4]]) ∧
    faultCall .before (.insert [storeRec 7 1 2, storeRec 8 3 4]) progStart = (none, some []) := by decide +kernel
example : faultCall (.cut 1 false) (.upsert {} [storeRec 7 1 2, storeRec 8 3 4]) progStart = (some [[7, 1, 2], [8, 3, 4]], some []) := by
  decide +kernel
example : Sound (condEnv true) (fun _ _ => True) .postgres (progTable true) (.insert [storeRec 7 1 2, storeRec 8 3 4]) ∧
    ([storeRec 7 1 2, storeRec 8 3 4].map (keyOf (progTable true))).Nodup :=
  ⟨⟨⟨rfl, fun _ _ => .inl rfl, .inr rfl⟩, fun _ _ _ _ => trivial⟩, by decide⟩
/-- two of four people -/
example : faultCall (.cut 2 true) (.query { orderBy := [(condId, true)] }) (condFour (condEnv true)) =
    (some [[1, 5, 2], [2, 6, 2]], condAll (condEnv true) .postgres {} (condFour (condEnv true))) := by decide +kernel

end Verif.Props

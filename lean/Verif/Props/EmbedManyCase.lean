import Verif.Props.EmbedManyLost
import Verif.Props.EmbedParsed

/-! # C105: a case -/

namespace Verif.Props

open Verif Verif.Addrs Verif.Gen Verif.Embed Verif.Spec Verif.Spec.Gen Verif.Spec.Store Verif.Spec.Embed Verif.Spec.Sql Verif.Store

/-- The `User` of `Props/EmbedParsed.lean`, for PostgreSQL and for MySQL. -/
def embMany (pg : Bool) : Store.Env Path (Option Nat) (Option Nat) :=
  { embStore pg with g := { (embStore pg).g with style := if pg then .numbered else .anon } }

theorem embSpelt : ∀ c ∈ (embTable none).columns, Spec.Store.Bare storePg c.name := by
  intro c hc
  simp only [embTable, List.mem_cons, List.not_mem_nil, or_false] at hc
  rcases hc with rfl | rfl | rfl <;> exact ⟨⟨by decide, by decide, by decide, by decide⟩, by decide⟩

theorem embManyShape (pg : Bool) : Typed.Shape (embMany pg).g (embMany pg).D (embTable none) := by
  have hq : ∀ s : String, s ≠ "" → '"' ∉ s.toList → Quoted (embMany pg).g storePg s := by
    intro s h0 h1
    refine ⟨?_, h1, h0⟩
    simp [embMany, embStore, storeCfg, storePg]
  refine ⟨(embShape pg).wf, (embShape pg).key, ⟨.inr rfl, hq _ (by decide) (by decide), ?_⟩, ⟨(embShape pg).bare.1, (embShape pg).bare.2⟩,
    (embShape pg).plain, (embShape pg).names, (embShape pg).single⟩
  intro c hc
  simp only [embTable, List.mem_cons, List.not_mem_nil, or_false] at hc
  rcases hc with rfl | rfl | rfl <;> exact hq _ (by decide) (by decide)

example (pg : Bool) : HelperNames (embMany pg).g (embMany pg).D (embTable none) ∧ Spelled (embMany pg).g (embMany pg).D (embTable none) ∧
    (embMany pg).g.style = (if (embMany pg).g.postgres then .numbered else .anon) ∧ (embTable none).auto = none :=
  ⟨⟨fun c hc => .inr (embSpelt c hc), .inr (by simp [embTable, pick, keyPos])⟩, fun c hc => .inr (embSpelt c hc), by cases pg <;> rfl, rfl⟩

example (pg : Bool) : AllWritten (embTable none) ∧ Struct (genAddrs (embTable none)) ∧ Lawful embValues (genAddrs (embTable none)) ∧
    Store.Keeps (raw (embMany pg)) (KeyCell (embMany pg) (embTable none)) (embTable none) (fun _ => none) (embOnly (embTable none)) :=
  ⟨by simp [AllWritten, embTable], embStruct none, embLawful none, C90_empty _ _ _ _ (if_pos rfl)⟩

/-- what the calls return: how they end, and the columns of the structs -/
def embReturns : Result (Option Nat) → End × List (List (Option Nat))
  | .one a => (a.1, [(genAddrs (embTable none)).map a.2.val])
  | .many a => (a.1, a.2.map fun r => (genAddrs (embTable none)).map r.val)
  | .list (.ok rs) => (.ok, rs.map fun r => (genAddrs (embTable none)).map r.val)
  | .first (.ok r) => (.ok, [(genAddrs (embTable none)).map r.val])
  | .done (.ok _) => (.ok, [])
  | .list .noRows | .first .noRows => (.noRows, [])
  | _ => (.failed, [])

def embMoves (pg : Bool) (os : List (Move (Option Nat))) : List (End × List (List (Option Nat))) :=
  (moves embValues (embMany pg) (if pg then .postgres else .mysql) condOrd (rulesOf (embMany pg).g) (embTable none) os
    (embOnly (embTable none))).1.map embReturns

/-- `User`s with an `Addr` are all returned by a query -/
example : embMoves true [.insert [embUser 7 (some 3) none, embUser 8 (some 4) (some 1)], .query {}] =
    [(.ok, [[some 7, some 3, none], [some 8, some 4, some 1]]), (.ok, [[some 7, some 3, none], [some 8, some 4, some 1]])] := by
  decide +kernel
/-- one without makes queries fail for all; on PostgreSQL the insert already fails, and the `User`s after it are left alone -/
example : embMoves false [.insert [embUser 7 (some 3) none, embUser 8 none none, embUser 9 (some 1) none], .query {}] =
    [(.ok, [[some 7, some 3, none], [some 8, none, none], [some 9, some 1, none]]), (.failed, [])] := by decide +kernel
example : embMoves true [.insert [embUser 7 (some 3) none, embUser 8 none none, embUser 9 (some 1) none], .query {},
    .insert [embUser 9 (some 1) none]] =
    [(.failed, [[some 7, some 3, none], [some 8, some 0, some 0], [some 9, some 1, none]]), (.failed, []),
      (.duplicate, [[some 9, some 1, none]])] := by decide +kernel
/-- an upsert that keeps what is there returns the row of the second `User` into the first -/
example : embMoves true [.insert [embUser 7 (some 3) none], .upsert ⟨true, []⟩ [embUser 7 (some 5) none, embUser 8 (some 6) none],
    .upsertOne ⟨true, []⟩ (embUser 7 none none)] =
    [(.ok, [[some 7, some 3, none]]), (.ok, [[some 8, some 6, none], [some 8, some 6, none]]), (.noRows, [[some 7, some 0, some 0]])] := by
  decide +kernel
example : Possible embValues (embMany true) .postgres (embTable none) (.query {}) := by
  refine ⟨⟨by simp [queryOf], by simp [queryOf, ProperWhere], by simp [queryOf]⟩, .inl rfl, .inl rfl⟩
example (pg : Bool) : Possible embValues (embMany pg) .mysql (embTable none) (.insert [embUser 7 (some 3) none, embUser 8 none none]) := by
  intro r hr c hc
  simp [embTable, pick, keyPos] at hc
  subst hc
  simp only [List.mem_cons, List.not_mem_nil, or_false] at hr
  have hp : Present embValues r embId := by
    refine ⟨?_, by simp [embId, lastPtr]⟩
    rintro p ⟨hp, q, s, rfl, -⟩ hne
    rcases List.prefix_cons_iff.1 hp with h | ⟨l, h, hl⟩
    · simp at h
    · rw [List.prefix_nil.1 hl] at h
      exact absurd h hne
  show cells embValues (embMany pg) r embId ≠ none
  unfold cells
  rw [if_pos hp]
  rcases hr with rfl | rfl <;> simp [embMany, embStore, embUser]

end Verif.Props

import Verif.Spec.Wide
import Verif.Spec.Bulk

/-!
# Programs: several clients, several models

What calls of the helpers are to do to the records of a model, and what comes of clients that make such calls at the same time.
-/

namespace Verif.Spec.Program

open Verif Verif.Gen Verif.Spec Verif.Spec.Gen Verif.Spec.Sql Verif.Spec.Store Verif.Store

/-- A call of a helper. -/
inductive Call (F X : Type) where
  /-- `InsertOne`, `FindByPK`, `UpdateByPK`, `DeleteByPK` -/
  | one (o : Spec.Store.Op F X)
  /-- `Insert` -/
  | insert (rs : List (F → X))
  /-- `Upsert` -/
  | upsert (w : Wish) (rs : List (F → X))
  | upsertOne (w : Wish) (r : F → X)
  /-- `QueryStmt` -/
  | query (q : Query F X)
  /-- `QueryOneStmt` -/
  | first (q : Query F X)
  /-- `ExecStmt` with an update -/
  | change (u : Change F X)
  /-- `ExecStmt` with a delete -/
  | remove (u : Removal F X)

/-- What a call returns, with the records it was given as they are then. -/
inductive Reply (F X : Type) where
  | one (a : Out (F → X))
  | many (a : Out (List (F → X)))
  | list (a : Ret (List (F → X)))
  | record (a : Ret (F → X))
  | done (a : Ret Unit)

variable {F X : Type} [DecidableEq F] [DecidableEq X]

/-- The fields that an upsert replaces. -/
def replacedFields (g : Cfg) (t : Table F) (w : Wish) : List F := (replaced g t w).map (·.field)

/-- What a call does to the records of a model, and what it returns; `zero` is the zero value of the model.  After an upsert
that keeps what is there, nothing is said of the records in memory in PostgreSQL (`C91_keep_overwrites`). -/
inductive Does (g : Cfg) (O : Comp F X) (t : Table F) (zero : F → X) (m : Map F X) : Call F X → Reply F X → Map F X → Prop where
  | one {o out m'} : Act t o m out m' → Does g O t zero m (.one o) (.one out) m'
  | insert {rs} : (rs.map (keyOf t)).Nodup → (∀ r ∈ rs, m (keyOf t r) = none) →
      Does g O t zero m (.insert rs) (.many (.ok rs)) fun k => (withKey t rs k).or (m k)
  | taken {rs} : ¬ ((rs.map (keyOf t)).Nodup ∧ ∀ r ∈ rs, m (keyOf t r) = none) →
      Does g O t zero m (.insert rs) (.many .duplicate) m
  | replace {w rs} : w.keep = false → (rs.map (keyOf t)).Nodup →
      Does g O t zero m (.upsert w rs)
        (.many (.ok (if g.postgres then rs.map fun r => load t (storedFor t (replacedFields g t w) m r) r else rs)))
        fun k => ((withKey t rs k).map (storedFor t (replacedFields g t w) m)).or (m k)
  | refuse {w rs} : w.keep = false → ¬ (rs.map (keyOf t)).Nodup → g.postgres = true →
      Does g O t zero m (.upsert w rs) (.many .failed) m
  | repeated {w rs m' ss} : w.keep = false → ¬ (rs.map (keyOf t)).Nodup → g.postgres = false →
      storeAll t .replace (replacedFields g t w) rs m = some (m', ss) → Does g O t zero m (.upsert w rs) (.many (.ok rs)) m'
  | keep {w rs rs'} : w.keep = true → (g.postgres = false → rs' = rs) →
      Does g O t zero m (.upsert w rs) (.many (.ok rs')) fun k => (m k).or (withKey t rs k)
  | keepOne {w r} : w.keep = true → m (keyOf t r) ≠ none →
      Does g O t zero m (.upsertOne w r) (.one (if g.postgres then .noRows else .ok r)) m
  | storeOne {w r} : ¬ (w.keep = true ∧ m (keyOf t r) ≠ none) →
      Does g O t zero m (.upsertOne w r)
        (.one (.ok (if g.postgres then load t (storedFor t (replacedFields g t w) m r) r else r)))
        (put m (keyOf t r) (some (storedFor t (replacedFields g t w) m r)))
  | query {q l} : Found O t m q.where_ q.orderBy l →
      Does g O t zero m (.query q) (.list (.ok ((firstOf q.limit (l.drop q.offset)).map fun s => load t s zero))) m
  | none {q} : Found O t m q.where_ q.orderBy [] → Does g O t zero m (.first q) (.record .noRows) m
  | first {q s l} : Found O t m q.where_ q.orderBy (s :: l) → Does g O t zero m (.first q) (.record (.ok (load t s zero))) m
  | change {u l} : Found O t m u.where_ u.orderBy l →
      Does g O t zero m (.change u) (.done (.ok ())) (setIn t u.set (firstOf u.limit l) m)
  | remove {u l} : Found O t m u.where_ u.orderBy l →
      Does g O t zero m (.remove u) (.done (.ok ())) (removeFrom t (firstOf u.limit l) m)

/-! ## Clients -/

/-- Something that calls the helpers: what it does next, for which model, depends on what the calls returned so far. -/
abbrev Client (I F X : Type) := List (Reply F X) → Option (I × Call F X)

/-- The replies that clients got. -/
abbrev Histories (C F X : Type) := C → List (Reply F X)

variable {I C : Type} [DecidableEq I] [DecidableEq C]

/-- The reply is the next one of the client. -/
def heard (h : Histories C F X) (c : C) (a : Reply F X) : Histories C F X := fun d => if d = c then h c ++ [a] else h d

def change (M : I → Map F X) (i : I) (m : Map F X) : I → Map F X := fun j => if j = i then m else M j

/-- The clients make their calls one at a time, in the order of the list. -/
inductive Runs (g : Cfg) (O : I → Comp F X) (t : I → Table F) (zero : I → F → X) (clients : C → Client I F X) :
    List C → Histories C F X → (I → Map F X) → Histories C F X → (I → Map F X) → Prop where
  | nil {h M} : Runs g O t zero clients [] h M h M
  | idle {c cs h M h' M'} : clients c (h c) = none → Runs g O t zero clients cs h M h' M' →
      Runs g O t zero clients (c :: cs) h M h' M'
  | call {c cs h M h' M' i a reply m} : clients c (h c) = some (i, a) → Does g (O i) (t i) (zero i) (M i) a reply m →
      Runs g O t zero clients cs (heard h c reply) (change M i m) h' M' → Runs g O t zero clients (c :: cs) h M h' M'

/-- In some order of the calls, the client comes to make this call. -/
def Calls (g : Cfg) (O : I → Comp F X) (t : I → Table F) (zero : I → F → X) (clients : C → Client I F X) (h : Histories C F X)
    (M : I → Map F X) (i : I) (a : Call F X) : Prop :=
  ∃ cs c h' M', Runs g O t zero clients cs h M h' M' ∧ clients c (h' c) = some (i, a)

/-! ## Calls that keep away from a key -/

/-- Other records than that with the key `k` are written or removed. -/
def Spares (O : Comp F X) (t : Table F) (k : List X) : Call F X → Prop
  | .one (.find _) => True
  | .one (.insert r) => t.autoCol = none → keyOf t r ≠ k
  | .one o => keyOf t o.record ≠ k
  | .insert rs => ∀ r ∈ rs, keyOf t r ≠ k
  | .upsert _ rs => ∀ r ∈ rs, keyOf t r ≠ k
  | .upsertOne _ r => keyOf t r ≠ k
  | .query _ => True
  | .first _ => True
  | .change u => ∀ s, keyOf t s = k → ¬ Meets O u.where_ s
  | .remove u => ∀ s, keyOf t s = k → ¬ Meets O u.where_ s

/-- The record with the key `k`, if there is one, is not removed. -/
def Leaves (O : Comp F X) (t : Table F) (k : List X) : Call F X → Prop
  | .one (.delete r) => keyOf t r ≠ k
  | .remove u => ∀ s, keyOf t s = k → ¬ Meets O u.where_ s
  | _ => True

/-- The `n`-th call of the client `c` was an `InsertOne` under the key `k` that succeeded. -/
def Wins (t : I → Table F) (clients : C → Client I F X) (h : Histories C F X) (i : I) (k : List X) (c : C) (n : Nat) : Prop :=
  ∃ r a, clients c ((h c).take n) = some (i, .one (.insert r)) ∧ keyOf (t i) r = k ∧ (h c)[n]? = some (.one (.ok a))

/-- Finds a record, sets a field to something else, and updates it. -/
def edit (i : I) (r : F → X) (f : F) (x : X) : Client I F X
  | [] => some (i, .one (.find r))
  | [.one (.ok a)] => some (i, .one (.update fun f' => if f' = f then x else a f'))
  | _ => none

end Verif.Spec.Program

import Verif.Spec.Program

/-!
# Connections that fail

How a connection can fail during a call, and what calls are to do then.
-/

namespace Verif.Spec.Program

open Verif Verif.Gen Verif.Spec Verif.Spec.Gen Verif.Spec.Sql Verif.Spec.Store Verif.Store

/-- What happens to a statement and its answer on the way. -/
inductive Fault where
  | fine
  /-- The statement does not reach the database, or is undone; the caller gets an error. -/
  | before
  /-- The statement is run, but its answer is lost; the caller gets an error. -/
  | after
  /-- So many rows of the answer arrive, and then an error instead of the end; the statement is in effect or undone. -/
  | cut (rows : Nat) (kept : Bool)

variable {F X : Type} [DecidableEq F] [DecidableEq X]

/-- The error that a call returns if nothing arrives. -/
def failure : Call F X → Reply F X
  | .one _ => .one .failed
  | .insert _ => .many .failed
  | .upsert _ _ => .many .failed
  | .upsertOne _ _ => .one .failed
  | .query _ => .list .failed
  | .first _ => .record .failed
  | .change _ => .done .failed
  | .remove _ => .done .failed

/-- A call is done and tells so, or it returns an error, and then it is done or not, but never in part or twice. -/
inductive Tries (g : Cfg) (O : Comp F X) (t : Table F) (zero : F → X) (m : Map F X) (a : Call F X) : Reply F X → Map F X → Prop where
  | does {reply m'} : Does g O t zero m a reply m' → Tries g O t zero m a reply m'
  | never : Tries g O t zero m a (failure a) m
  | lost {reply m'} : Does g O t zero m a reply m' → Tries g O t zero m a (failure a) m'

/-- `Runs`, for calls that can fail. -/
inductive Attempts {I C : Type} [DecidableEq I] [DecidableEq C] (g : Cfg) (O : I → Comp F X) (t : I → Table F) (zero : I → F → X)
    (clients : C → Client I F X) : List C → Histories C F X → (I → Map F X) → Histories C F X → (I → Map F X) → Prop where
  | nil {h M} : Attempts g O t zero clients [] h M h M
  | idle {c cs h M h' M'} : clients c (h c) = none → Attempts g O t zero clients cs h M h' M' →
      Attempts g O t zero clients (c :: cs) h M h' M'
  | call {c cs h M h' M' i a reply m} : clients c (h c) = some (i, a) → Tries g (O i) (t i) (zero i) (M i) a reply m →
      Attempts g O t zero clients cs (heard h c reply) (change M i m) h' M' → Attempts g O t zero clients (c :: cs) h M h' M'

/-- In some order of the calls, and whatever fails, the client `c` comes to make this call. -/
def Comes {I C : Type} [DecidableEq I] [DecidableEq C] (g : Cfg) (O : I → Comp F X) (t : I → Table F) (zero : I → F → X)
    (clients : C → Client I F X) (h : Histories C F X) (M : I → Map F X) (c : C) (i : I) (a : Call F X) : Prop :=
  ∃ cs h' M', Attempts g O t zero clients cs h M h' M' ∧ clients c (h' c) = some (i, a)

/-- An error of the connection. -/
def Reply.isFailure : Reply F X → Bool
  | .one .failed => true
  | .many .failed => true
  | .list .failed => true
  | .record .failed => true
  | .done .failed => true
  | _ => false

/-- A client that makes a call again as long as it returns an error of the connection. -/
def insist {I : Type} (i : I) (a : Call F X) : Client I F X := fun h => if h.all Reply.isFailure then some (i, a) else none

end Verif.Spec.Program

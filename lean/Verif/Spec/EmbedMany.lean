import Verif.Model.EmbedMany
import Verif.Spec.Embed
import Verif.Spec.Wide
import Verif.Lemmas.BulkStore

/-!
# Batches, upserts and queries with Go structs

What they are to do, in terms of the rows of the table.
-/

namespace Verif.Spec.Embed

open Verif Verif.Addrs Verif.Gen Verif.Embed Verif.Props Verif.Spec.Store Verif.Spec.Gen Verif.Store

variable {X V : Type}

/-! ## Rows read into structs -/

/-- Rows read into structs one after the other: the first row that cannot be read ends it, and the structs after it are left alone. -/
inductive LoadsAll (G : Values X) (E : Store.Env Path X V) (cols : List Path) : List (Path → V) → List (Obj X) → End × List (Obj X) → Prop
  | done {rs} : LoadsAll G E cols [] rs (.ok, rs)
  | next {s ss r rs r' e rs'} : Loads G E cols s r (.ok, r') → LoadsAll G E cols ss rs (e, rs') →
      LoadsAll G E cols (s :: ss) (r :: rs) (e, r' :: rs')
  | stop {s ss r rs r'} : Loads G E cols s r (.failed, r') → LoadsAll G E cols (s :: ss) (r :: rs) (.failed, r' :: rs)

/-- Rows read into new structs, in which all pointers are nil: all of them, or there is an error because a column of one of them cannot be read. -/
def Lists (G : Values X) (E : Store.Env Path X V) (cols : List Path) (ss : List (Path → V)) (a : Ret (List (Obj X))) : Prop :=
  (∃ rs, a = .ok rs ∧ List.Forall₂ (fun s r => Loads G E cols s ⟨fun _ => false, G.zero⟩ (.ok, r)) ss rs) ∨
  a = .failed ∧ ∃ s ∈ ss, ∃ c ∈ cols, E.dec c (s c) (start G ⟨fun _ => false, G.zero⟩ c) = none

/-- A struct without nil embedded pointers, with the fields of a record. -/
def Has (cols : List Path) (s : Path → X) (r : Obj X) : Prop := ∀ c ∈ cols, Reached r c ∧ r.val c = s c

/-! ## Conditions on rows -/

mutual
/-- The condition, on rows: values as they are written. -/
def condOf (E : Store.Env Path X V) : Cond Path X → Cond Path V
  | .and cs => .and (condsOf E cs)
  | .or cs => .or (condsOf E cs)
  | .cmp op c x => .cmp op c (E.enc c.field x)
  | .isIn neg c xs => .isIn neg c (xs.map (E.enc c.field))
  | .null neg c => .null neg c
  | .between neg c a b => .between neg c (E.enc c.field a) (E.enc c.field b)
def condsOf (E : Store.Env Path X V) : List (Cond Path X) → List (Cond Path V)
  | [] => []
  | c :: cs => condOf E c :: condsOf E cs
end

def queryOf (E : Store.Env Path X V) (q : Query Path X) : Query Path V where
  select := q.select
  where_ := q.where_.map (condOf E)
  orderBy := q.orderBy
  offset := q.offset
  limit := q.limit

def changeOf (E : Store.Env Path X V) (u : Change Path X) : Change Path V where
  set := u.set.map fun p => (p.1, E.enc p.1.field p.2)
  where_ := u.where_.map (condOf E)
  orderBy := u.orderBy
  limit := u.limit

def removalOf (E : Store.Env Path X V) (u : Removal Path X) : Removal Path V where
  where_ := u.where_.map (condOf E)
  orderBy := u.orderBy
  limit := u.limit

/-- Rows are compared as the database does. -/
def byCells [DecidableEq V] (K : Sql.Compare V) (null : V) : Comp Path V where
  isNil _ v := decide (v = null)
  eq _ := K.eq
  lt _ := K.lt
  like _ := K.like
  before _ := K.before

/-! ## Sequences of calls -/

variable [DecidableEq V]

/-- What a call does with the rows by key `m`, and with the structs. -/
def Moves (G : Values X) (E : Store.Env Path X V) (K : Sql.Compare V) (t : Table Path) : Move X → Map Path V → Result X → Map Path V → Prop
  | .one o, m, .one a, m' => Step G E t o m a m'
  | .insert rs, m, .many a, m' =>
    if (rs.map fun r => keyOf t (cells G E r)).Nodup ∧ ∀ r ∈ rs, m (keyOf t (cells G E r)) = none then
      m' = (fun k => (withKey t (rs.map (cells G E)) k).or (m k)) ∧
        if E.g.postgres then LoadsAll G E (genAddrs t) (rs.map (cells G E)) rs a else a = (.ok, rs)
    else m' = m ∧ a = (.duplicate, rs)
  | .upsert w rs, m, .many a, m' =>
    if E.g.postgres = true ∧ w.keep = false ∧ ¬ (rs.map fun r => keyOf t (cells G E r)).Nodup then m' = m ∧ a = (.failed, rs)
    else ∃ ss, storeAll t (existing w) ((replaced E.g t w).map (·.field)) (rs.map (cells G E)) m = some (m', ss) ∧
      if E.g.postgres then LoadsAll G E (genAddrs t) ss rs a else a = (.ok, rs)
  | .upsertOne w r, m, .one a, m' =>
    if w.keep = true ∧ (m (keyOf t (cells G E r))).isSome then
      m' = m ∧ if E.g.postgres then a.1 = .noRows ∧ Opened G (genAddrs t) r a.2 else a = (.ok, r)
    else
      m' = put m (keyOf t (cells G E r)) (some (storedFor t ((replaced E.g t w).map (·.field)) m (cells G E r))) ∧
        if E.g.postgres then Loads G E (genAddrs t) (storedFor t ((replaced E.g t w).map (·.field)) m (cells G E r)) r a else a = (.ok, r)
  | .query q, m, .list a, m' => m' = m ∧
    ∃ l, Found (byCells K E.null) t m (q.where_.map (condOf E)) q.orderBy l ∧ Lists G E (genAddrs t) (firstOf q.limit (l.drop q.offset)) a
  | .queryOne q, m, .first a, m' => m' = m ∧
    ∃ l, Found (byCells K E.null) t m (q.where_.map (condOf E)) q.orderBy l ∧
      match l with
      | [] => a = .noRows
      | s :: _ => (∃ r, a = .ok r ∧ Loads G E (genAddrs t) s ⟨fun _ => false, G.zero⟩ (.ok, r)) ∨
        a = .failed ∧ ∃ c ∈ genAddrs t, E.dec c (s c) (start G ⟨fun _ => false, G.zero⟩ c) = none
  | .update u, m, .done a, m' => a = .ok () ∧
    ∃ l, Found (byCells K E.null) t m (u.where_.map (condOf E)) u.orderBy l ∧
      m' = setIn t (changeOf E u).set (firstOf u.limit l) m
  | .delete u, m, .done a, m' => a = .ok () ∧
    ∃ l, Found (byCells K E.null) t m (u.where_.map (condOf E)) u.orderBy l ∧ m' = removeFrom t (firstOf u.limit l) m
  | _, _, _, _ => False

/-- Sequences of calls. -/
inductive AllMoves (G : Values X) (E : Store.Env Path X V) (K : Sql.Compare V) (t : Table Path) :
    List (Move X) → Map Path V → List (Result X) → Map Path V → Prop where
  | nil {m} : AllMoves G E K t [] m [] m
  | cons {o os m a m' as m''} : Moves G E K t o m a m' → AllMoves G E K t os m' as m'' → AllMoves G E K t (o :: os) m (a :: as) m''

/-- Calls that can be made: keys are given, and conditions, orders and limits are those of C92. -/
def Possible (G : Values X) (E : Store.Env Path X V) (br : Sql.Brand) (t : Table Path) : Move X → Prop
  | .one o => Given G E t o
  | .insert rs => ∀ r ∈ rs, ∀ c ∈ pick t (keyPos t), cells G E r c.field ≠ E.null
  | .upsert w rs => rs ≠ [] ∧ (w.keep = true ∨ replaced E.g t w ≠ []) ∧ ∀ r ∈ rs, ∀ c ∈ pick t (keyPos t), cells G E r c.field ≠ E.null
  | .upsertOne w r => (w.keep = true ∨ replaced E.g t w ≠ []) ∧
      (E.g.postgres = true ∨ w.keep = true ∨ (pick t (keyPos t)).length = 1) ∧ ∀ c ∈ pick t (keyPos t), cells G E r c.field ≠ E.null
  | .query q => ProperQuery (KeyCell E t) t (queryOf E q) ∧ (q.select = [] ∨ q.select = t.columns) ∧
      (q.offset = 0 ∨ q.limit ≠ 0 ∨ br = .postgres)
  | .queryOne q => ProperQuery (KeyCell E t) t (queryOf E q) ∧ (q.select = [] ∨ q.select = t.columns)
  | .update u => ProperChange (KeyCell E t) t (changeOf E u) ∧ u.set ≠ [] ∧ (u.set.map (·.1)).Nodup ∧
      (∀ p ∈ u.set, p.1 ∉ pick t (keyPos t)) ∧ (E.g.style = .numbered → u.limit = 0) ∧ Allowed br u.orderBy u.limit
  | .delete u => ProperRemoval (KeyCell E t) t (removalOf E u) ∧ (E.g.style = .numbered → u.limit = 0) ∧ Allowed br u.orderBy u.limit

end Verif.Spec.Embed

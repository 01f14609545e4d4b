import Verif.Props.EmbedLost
import Verif.Lemmas.Declared

/-! # C102: from the declaration of a struct -/

namespace Verif.Props

open Verif Verif.Addrs Verif.Gen Verif.Embed Verif.Spec Verif.Spec.Gen Verif.Spec.Store Verif.Spec.Embed

variable {X V : Type} {G : Values X} {E : Store.Env Path X V}
variable {cfg : Parser.Config} {srt : Parser.Sorter} {env : Parser.Env} {n : Nat} {s : Parser.Cache} {p : Parser.PTable}
  {out : List Spec.Parser.Leaf}

/-- C102: the columns of every accepted struct whose declaration follows the rules of Go are what the other theorems assume. -/
theorem C102_parsed (hD : Declared env) (hs : Spec.Parser.IsSort srt) (ho : Spec.Parser.Fields env [] (env s.t) out)
    (h : Parser.parseStruct cfg srt env n s = some (.ok (some p))) (sc va : Path → Option Tmpl) (own : Option String) :
    Struct (genAddrs (toGen sc va own p)) := by
  obtain ⟨cs, h1, h2, -⟩ := C37_keys hs ho h
  refine struct_of_fields hD ho ?_
  have e : genAddrs (toGen sc va own p) = cs.map Parser.SField.path := by
    have := congrArg (List.map Prod.fst) h2
    simpa [genAddrs, toGen, Function.comp_def] using this
  rw [e]
  exact h1.map _

/-- C102, from the declaration: for every struct that is accepted, has a key and whose names can be written, sequences of calls do with
the rows of its table what `Step` says. -/
theorem C102_declared [DecidableEq V] (hD : Declared env) (hs : Spec.Parser.IsSort srt) (ho : Spec.Parser.Fields env [] (env s.t) out)
    (h : Parser.parseStruct cfg srt env n s = some (.ok (some p))) (own : Option String)
    (hkey : (toGen (fun _ => none) (fun _ => none) own p).hasPK = true)
    (hname : Named E.g E.D (toGen (fun _ => none) (fun _ => none) own p))
    (hbare : BareNames E.g E.D (toGen (fun _ => none) (fun _ => none) own p))
    (hcol : ((toGen (fun _ => none) (fun _ => none) own p).columns.map (colName E.D)).Nodup)
    (hsingle : ∀ i, p.auto = some i → ∀ k ∈ p.keys, k = i)
    (hw : AllWritten (toGen (fun _ => none) (fun _ => none) own p)) (hG : Lawful G (genAddrs (toGen (fun _ => none) (fun _ => none) own p)))
    (hauto : ∀ c, (toGen (fun _ => none) (fun _ => none) own p).autoCol = some c →
      pick (toGen (fun _ => none) (fun _ => none) own p) (insertPos (toGen (fun _ => none) (fun _ => none) own p)) ≠ [] ∧
      Makes E (toGen (fun _ => none) (fun _ => none) own p) c)
    (os : List (Call X)) (hg : ∀ o ∈ os, Given G E (toGen (fun _ => none) (fun _ => none) own p) o) (m : Map Path V) (σ : Sql.Store V)
    (hk : Store.Keeps (raw E) (KeyCell E (toGen (fun _ => none) (fun _ => none) own p)) (toGen (fun _ => none) (fun _ => none) own p) m σ) :
    ∃ m', Steps G E (toGen (fun _ => none) (fun _ => none) own p) os m
        (performs G E (toGen (fun _ => none) (fun _ => none) own p) os σ).1 m' ∧
      Store.Keeps (raw E) (KeyCell E (toGen (fun _ => none) (fun _ => none) own p)) (toGen (fun _ => none) (fun _ => none) own p) m'
        (performs G E (toGen (fun _ => none) (fun _ => none) own p) os σ).2 ∧
      ∀ n, n ≠ tableName E.D (toGen (fun _ => none) (fun _ => none) own p) →
        (performs G E (toGen (fun _ => none) (fun _ => none) own p) os σ).2 n = σ n :=
  C102_steps ⟨C34_parsed_tables_wf hs ho _ _ own h, hkey, hname, hbare, fun c hc => by
    simp only [toGen, List.mem_map] at hc
    obtain ⟨k, -, rfl⟩ := hc
    exact ⟨rfl, rfl⟩, hcol, hsingle⟩ hw (C102_parsed hD hs ho h _ _ own) hG hauto os hg m σ hk

/-! ## Examples -/

/-- `type User struct { ID int64; *Addr; Nick *string }` with `type Addr struct { City string }`. -/
def embEnv : Parser.Env
  | 0 => [.named [("ID".toList, true)] {} "id,pk".toList, .embed "Addr".toList true { ptrs := 1 } [] (some 1),
      .named [("Nick".toList, true)] { ptrs := 1 } "nick".toList]
  | 1 => [.named [("City".toList, true)] {} "city".toList]
  | _ => []

example : Declared embEnv := by
  intro id
  match id with
  | 0 => exact ⟨by decide, by simp [embEnv, BlankHidden]⟩
  | 1 => exact ⟨by decide, by simp [embEnv, BlankHidden]⟩
  | n + 2 => exact ⟨List.nodup_nil, by simp [embEnv]⟩

def embId : Path := [⟨"ID", false⟩]
def embCity : Path := [⟨"Addr", true⟩, ⟨"City", false⟩]
def embNick : Path := [⟨"Nick", true⟩]

/-- Its table, by default with a key given by the program. -/
def embTable (auto : Option Nat) : Table Path :=
  { name := "people", keys := [0], auto := auto
    columns := [⟨"id", embId, 0, false, none, none⟩, ⟨"city", embCity, 1, false, none, none⟩, ⟨"nick", embNick, 2, false, none, none⟩] }

/-- The same, with the key in the embedded struct. -/
def embDeep : Table Path :=
  { name := "people", keys := [0], auto := some 0
    columns := [⟨"id", [⟨"Base", true⟩, ⟨"ID", false⟩], 0, false, none, none⟩, ⟨"nick", embNick, 1, false, none, none⟩] }

theorem embStruct (auto : Option Nat) : Struct (genAddrs (embTable auto)) := by
  show Struct (genAddrs (embTable none))
  refine ⟨?_, by decide, by decide⟩
  have h : ∀ c ∈ genAddrs (embTable none), ∀ d ∈ genAddrs (embTable none), ∀ p ∈ c.inits, ∀ q ∈ d.inits, names p = names q → p = q := by decide
  exact fun c hc d hd p q hp hq e => h c hc d hd p ((List.mem_inits _ _).2 hp) q ((List.mem_inits _ _).2 hq) e

/-- `none` is the nil pointer, and NULL; `City` does not accept NULL. -/
def embValues : Values (Option Nat) := ⟨(· == none), fun c => if lastPtr c then none else some 0, fun _ => some 0⟩

def embStore (pg : Bool) : Store.Env Path (Option Nat) (Option Nat) where
  g := { storeCfg false with postgres := pg }
  D := storePg
  null := none
  gen T := some (T.rows.foldr (fun row n => max n ((row "id".toList).getD 0)) 0 + 1)
  enc _ x := x
  dec c v _ := if c = embCity ∧ v = none then none else some v
  toId v := some v

theorem embLawful (auto : Option Nat) : Lawful embValues (genAddrs (embTable auto)) := by
  intro c _ hl
  simp [embValues, hl]

theorem embShape (pg : Bool) : Typed.Shape (embStore pg).g (embStore pg).D (embTable none) := by
  have hq : ∀ s : String, s ≠ "" → '"' ∉ s.toList → Quoted (embStore pg).g storePg s := by
    intro s h0 h1
    refine ⟨?_, h1, h0⟩
    simp [embStore, storeCfg, storePg]
  have hb : Spec.Store.Bare storePg "people" ∧ Spec.Store.Bare storePg "id" :=
    ⟨⟨⟨by decide, by decide, by decide, by decide⟩, by decide⟩, ⟨⟨by decide, by decide, by decide, by decide⟩, by decide⟩⟩
  refine ⟨⟨by decide, ?_, by decide, by decide, by simp [embTable]⟩, rfl, ⟨.inr rfl, hq _ (by decide) (by decide), ?_⟩, ⟨fun _ => .inr hb.1, ?_⟩, ?_,
    ?_, by simp [embTable]⟩
  · intro i c h
    match i, h with
    | 0, h => simp [embTable] at h; subst h; rfl
    | 1, h => simp [embTable] at h; subst h; rfl
    | 2, h => simp [embTable] at h; subst h; rfl
    | n + 3, h => simp [embTable] at h
  · intro c hc
    simp only [embTable, List.mem_cons, List.not_mem_nil, or_false] at hc
    rcases hc with rfl | rfl | rfl <;> exact hq _ (by decide) (by decide)
  · intro c hc
    simp [embTable, pick, keyPos] at hc
    subst hc
    exact .inr hb.2
  · simp [NoTemplates, embTable]
  · show ((embTable none).columns.map (colName storePg)).Nodup
    decide

/-- What can be stored: only `Nick` may be nil. -/
def EmbOk (c : Path) (x : Option Nat) : Prop := c ≠ embNick → x ≠ none

theorem embSetup (pg : Bool) : Store.Setup (embStore pg) (embTable none) EmbOk where
  wf := (embShape pg).wf
  key := (embShape pg).key
  named := (embShape pg).named
  bare := (embShape pg).bare
  plain := (embShape pg).plain
  names := (embShape pg).names
  single := (embShape pg).single
  back := fun c hc x old hx => by
    simp only [embStore]
    rw [if_neg]
    rintro ⟨h1, h2⟩
    exact hx (by rw [h1]; decide) h2
  keyed := fun c hc x hx => by
    simp [embTable, pick, keyPos] at hc
    subst hc
    exact hx (by decide)

example : ∀ c ∈ genAddrs (embTable none), lastPtr c = true → ∀ x, embValues.isNil x = true → (embStore true).enc c x = (embStore true).null := by
  intro c _ _ x hx
  simpa [embValues, embStore] using hx

/-- A `User`, with or without an `Addr`. -/
def embUser (id : Nat) (city nick : Option Nat) : Obj (Option Nat) where
  mem _ := city.isSome
  val c := if c = embId then some id else if c = embCity then city else nick

def embOnly (t : Table Path) : Sql.Store (Option Nat) :=
  fun n => if n = tableName storePg t then some (tableOf storePg t []) else none

def embShow (pg : Bool) (t : Table Path) (os : List (Call (Option Nat))) : List (End × Bool × List (Option Nat)) :=
  (performs embValues (embStore pg) t os (embOnly t)).1.map fun a => (a.1, a.2.mem ["Addr"], (genAddrs t).map a.2.val)

example : Store.Keeps (raw (embStore true)) (KeyCell (embStore true) (embTable none)) (embTable none) (fun _ => none) (embOnly (embTable none)) :=
  C90_empty _ _ _ _ (if_pos rfl)
/-- all `User`s with an `Addr` are stored and found again, into one without -/
example : embShow false (embTable none) [.insert (embUser 7 (some 3) none), .find (embUser 7 none (some 5)), .insert (embUser 7 (some 1) none)] =
    [(.ok, true, [some 7, some 3, none]), (.ok, true, [some 7, some 3, none]), (.duplicate, true, [some 7, some 1, none])] := by
  decide +kernel
/-- without an `Addr` they are stored, but not found: `City` is no pointer -/
example : embShow false (embTable none) [.insert (embUser 7 none none), .find (embUser 7 none none)] =
    [(.ok, false, [some 7, none, none]), (.failed, true, [some 7, some 0, some 0])] := by decide +kernel
/-- on PostgreSQL the insert fails as well, with the row stored -/
example : embShow true (embTable none) [.insert (embUser 7 none none), .insert (embUser 7 (some 1) none)] =
    [(.failed, true, [some 7, some 0, some 0]), (.duplicate, true, [some 7, some 1, some 0])] := by decide +kernel
example : ¬ Present embValues (embUser 7 none none) embCity := by
  intro h
  have := h.1 [⟨"Addr", true⟩] ⟨by decide, [], _, rfl, rfl⟩ (by decide)
  simp [embUser] at this
example : Solid EmbOk (embTable none) (.insert (embUser 7 (some 3) none)) := by
  refine ⟨fun c hc p _ _ => rfl, fun c hc => ?_, by simp [opOf]⟩
  simp only [embTable, List.mem_cons, List.not_mem_nil, or_false] at hc
  rcases hc with rfl | rfl | rfl <;> simp [EmbOk, opOf, Spec.Store.Op.record, embUser, embId, embCity, embNick]
/-- where there is no record, the struct is changed -/
example : embShow false (embTable none) [.find (embUser 7 none none)] = [(.noRows, true, [some 7, some 0, some 0])] := by decide +kernel
/-- a key made up by the database, behind a nil pointer -/
example : (performs embValues (embStore false) embDeep [.insert ⟨fun _ => false, fun _ => none⟩] (embOnly embDeep)).1.map (·.1) = [.panics] := by
  decide +kernel
example : ¬ Reached (⟨fun _ => false, fun _ => none⟩ : Obj (Option Nat)) [⟨"Base", true⟩, ⟨"ID", false⟩] := by
  intro h
  have := h [⟨"Base", true⟩] ⟨by decide, [], _, rfl, rfl⟩ (by decide)
  simp at this

end Verif.Props

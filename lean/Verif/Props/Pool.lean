import Verif.Lemmas.Pool

/-!
# Property C15 (and the pool half of C54): statements taken from the pool
-/

namespace Verif.Props

open Verif.Pool Verif.Spec.Pool

variable {α : Type}

private theorem follows (as : List (Act α)) : ∀ (s : State α) (a : AState α), Inv s → Looks s a →
    Inv (run s as) ∧ Looks (run s as) (follow s a as) := by
  induction as with
  | nil => intro s a hi hl; exact ⟨hi, hl⟩
  | cons x as ih => intro s a hi hl; exact ih _ _ (hi.step x) (looks_step hi hl x)

/-- C15. After any history, the pooled program looks to its clients exactly like one in which every
acquisition makes a brand new statement and nothing is shared: same contents of every held
statement, and everything handed to the database so far still reads as it did. -/
theorem C15_pool_refines_fresh (as : List (Act α)) :
    Looks (run ({} : State α) as) (follow {} {} as) :=
  (follows as {} {} Inv.init looks_init).2

/-- C15. After any history, a statement that has just been acquired is held by nobody else, has no
text, no arguments and numbering from the start. -/
theorem C15_acquired_is_clean (as : List (Act α)) (x : Act α) (i : Nat)
    (hx : x = .acquire i ∧ i ∈ (run ({} : State α) as).free ∨
      x = .acquireNew ∧ i = (run ({} : State α) as).count) :
    i ∉ (run ({} : State α) as).held ∧
    (step (run ({} : State α) as) x).held = i :: (run ({} : State α) as).held ∧
    (∀ k, read (step (run ({} : State α) as) x).heap ((step (run ({} : State α) as) x).buf i k) = []) ∧
    (step (run ({} : State α) as) x).pos i = 0 := by
  have hi := (follows as {} {} Inv.init looks_init).1
  generalize run ({} : State α) as = s at *
  have hn : i ∉ s.held := by
    rcases hx with ⟨-, h⟩ | ⟨-, h⟩
    · exact fun hh => (List.nodup_append.1 hi.nodup).2.2 i hh i h rfl
    · intro hh
      have := hi.lt i (.inl hh)
      omega
  obtain ⟨c1, c2⟩ := hi.clean i hn
  refine ⟨hn, ?_, ?_, ?_⟩
  · rcases hx with ⟨rfl, h⟩ | ⟨rfl, rfl⟩
    · simp [step, h]
    · rfl
  · intro k
    rcases hx with ⟨rfl, h⟩ | ⟨rfl, rfl⟩
    · simp [step, h, c1 k, Pool.read]
    · simp [step, c1 k, Pool.read]
  · rcases hx with ⟨rfl, h⟩ | ⟨rfl, rfl⟩
    · simp [step, h, c2]
    · simp [step, c2]

/-- C15. No statement is ever held twice. -/
theorem C15_never_shared (as : List (Act α)) : (run ({} : State α) as).held.Nodup :=
  (List.nodup_append.1 (follows as {} {} Inv.init looks_init).1.nodup).1

/-- C54, why it matters. If a client releases an object twice, two later acquisitions give the same
object to two clients, whatever the state before. -/
theorem C54_double_release_shares (s : State α) (i : Nat) :
    ∃ rest, (run (rawRelease (rawRelease s i) i) [.acquire i, .acquire i]).held = i :: i :: rest := by
  refine ⟨(s.held.erase i).erase i, ?_⟩
  simp [run, step, rawRelease, reset]

private def hist : List (Act Nat) :=
  [.acquireNew, .append 0 false 7 [0, 0], .hand 0 false, .append 0 false 8 [], .release 0,
   .acquire 0, .append 0 false 9 [], .acquireNew, .append 1 true 3 [], .advance 1 2]

example : (run ({} : State Nat) hist).held = [1, 0] := by decide
example : (run ({} : State Nat) hist).handed.map (fun p => read (run ({} : State Nat) hist).heap p.1) =
    [[7]] := by decide
example : 0 ∈ (run ({} : State Nat) (hist.take 5)).free := by decide

end Verif.Props

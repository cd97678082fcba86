import Verif.Model.RandLock
/- What is meant by calls that can be made from any goroutine. -/
namespace Verif.RandLock

/-- All goroutines have returned from all their calls. -/
def Done (s : State) : Prop := ∀ as ∈ s.rem, as = []

/-- Goroutine i has returned from all its calls. -/
def Returned (s : State) (i : Nat) : Prop := s.rem[i]? = some []

/-- Goroutine i is at a place where it touches the generator. -/
def Using (s : State) (i : Nat) : Prop := ∃ as, s.rem[i]? = some (.use :: as)

/-- However the goroutines making these calls are scheduled: some goroutine can go on until all have returned; every
schedule that goes on as long as it can is of the same length, and no two goroutines touch the generator at once. -/
structure Shareable {C : Type} (acts : C → List Act) (progs : List (List C)) : Prop where
  goes_on : ∀ sched s, run (init acts progs) sched = some s → Done s ∨ ∃ i, step s i ≠ none
  ends : ∀ sched s, run (init acts progs) sched = some s →
    sched.length ≤ (progs.map fun p => (p.flatMap acts).length).sum ∧
    ((∀ i, step s i = none) → sched.length = (progs.map fun p => (p.flatMap acts).length).sum)
  alone : ∀ sched s, run (init acts progs) sched = some s → ∀ i j, Using s i → Using s j → i = j

end Verif.RandLock

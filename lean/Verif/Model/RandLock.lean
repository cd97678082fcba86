/-
Model of the locking of the shared random generators: type PRNG of /repo/mathrand.go ("It is goroutine safe") and type
prng of /repo/tube/mathrand.go.

* A call is the list of what it does with the mutex and with the generator behind it, in order. What is computed from
  the bytes is in Model/Rand; how often a call draws depends on the bytes, and is a parameter here.
* Go's sync.Mutex does not ask who holds it: Lock waits until it is free, Unlock frees it whoever took it, and unlocking
  a free mutex ends the program (here: no step).
-/
namespace Verif.RandLock

/-- `use` touches the generator: reads from it, or replaces it. -/
inductive Act where
  | lock
  | unlock
  | use
deriving DecidableEq, Repr

/-- `rng.mut.Lock()`, `body`, `rng.mut.Unlock()`. -/
def locked (body : List Act) : List Act := .lock :: body ++ [.unlock]

/-- The calls of PRNG; the numbers are how often a value drawn is rejected. -/
inductive Call where
  | read | uint64 | reseed | newCallID | rand15B | nonNeg | positive (again : Nat) | int64 | bool
  | range (again : Nat) | posOrNegSmall (again : Nat) | posOrNegLarge (again : Nat) | posOrNegMax (again : Nat)
deriving DecidableEq, Repr

/-- mathrand.go:31-36 `Read`. -/
def read : List Act := locked [.use]

/-- mathrand.go:113-127 `PseudoRandNonNegInt64`, calling `Read`. -/
def nonNeg : List Act := locked read

/-- mathrand.go:145-153 `PseudoRandInt64`, calling `Read`. -/
def int64 : List Act := locked read

/-- mathrand.go:177-183 `PseudoRandNonNegInt64Range`, reading the generator itself. -/
def range (again : Nat) : List Act := locked (List.replicate (again + 1) .use)

/-- What each call does: mathrand.go:31-317. -/
def acts : Call → List Act
  | .read => read
  | .uint64 => read                       -- 85-89, calls Read
  | .reseed => locked [.use]              -- 38-82, the three
  | .newCallID => locked [.use]           -- 91-101, reads the generator itself
  | .rand15B => locked read               -- 103-110, calls Read
  | .nonNeg => nonNeg
  | .positive again => locked (List.replicate (again + 1) nonNeg).flatten -- 130-142, calls PseudoRandNonNegInt64
  | .int64 => int64
  | .bool => locked read                  -- 155-162, calls Read
  | .range again => range again
  | .posOrNegSmall again => range again   -- 290-293
  | .posOrNegLarge again => locked (List.replicate (again + 1) .use) -- 296-313
  | .posOrNegMax again => (List.replicate (again + 1) int64).flatten -- 269-278, calls PseudoRandInt64

/-- The calls of tube's prng. -/
inductive TubeCall where
  | nonNeg | positive (again : Nat) | int64 | bool | range (again : Nat)
  | posOrNegSmall (again : Nat) | posOrNegLarge (again : Nat) | posOrNegMax (again : Nat) | float64prob (again : Nat)
deriving DecidableEq, Repr

/-- tube/mathrand.go:26-240: all read the generator itself, but pseudoRandPositiveInt64 (43-55), which calls
pseudoRandNonNegInt64. -/
def tubeActs : TubeCall → List Act
  | .nonNeg => locked [.use]
  | .positive again => locked (List.replicate (again + 1) (locked [.use])).flatten
  | .int64 => locked [.use]
  | .bool => locked [.use]
  | .range again => range again
  | .posOrNegSmall again => range again
  | .posOrNegLarge again => locked (List.replicate (again + 1) .use)
  | .posOrNegMax again => (List.replicate (again + 1) (locked [.use])).flatten
  | .float64prob again => locked (List.replicate (again + 1) .use)

/-- The mutex, and what each goroutine has still to do. -/
structure State where
  holder : Option Nat
  rem : List (List Act)
deriving DecidableEq, Repr

/-- Goroutines that make these calls one after another; the mutex is free. -/
def init {C : Type} (acts : C → List Act) (progs : List (List C)) : State :=
  { holder := none, rem := progs.map fun p => p.flatMap acts }

/-- Goroutine i does what it has next, if it can. -/
def step (s : State) (i : Nat) : Option State :=
  match s.rem[i]? with
  | some (.lock :: as) => if s.holder = none then some { holder := some i, rem := s.rem.set i as } else none
  | some (.unlock :: as) => if s.holder = none then none else some { holder := none, rem := s.rem.set i as }
  | some (.use :: as) => some { s with rem := s.rem.set i as }
  | some [] => none
  | none => none

/-- One goroutine after another, as scheduled. -/
def run (s : State) : List Nat → Option State
  | [] => some s
  | i :: is =>
    match step s i with
    | some s' => run s' is
    | none => none

end Verif.RandLock

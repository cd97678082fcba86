import Verif.Proofs.RandLock
/- C124: a random generator shared by goroutines. -/
namespace Verif.RandLock

/-- The calls of PRNG that come back. -/
def sound : Call → Bool
  | .read | .uint64 | .reseed | .newCallID | .range _ | .posOrNegSmall _ | .posOrNegLarge _ => true
  | _ => false

/-- The calls of tube's prng that come back: all but one. -/
def tubeSound : TubeCall → Bool
  | .positive _ => false
  | _ => true

/-- C124, for the calls of PRNG that read the generator themselves. -/
theorem C124_shareable_partial (progs : List (List Call)) (h : ∀ p ∈ progs, ∀ c ∈ p, sound c = true) :
    Shareable acts progs := by
  refine shareable closed_acts progs fun p hp c hc => ?_
  have := h p hp c hc
  cases c with
  | read => exact .of_once once_use
  | uint64 => exact .of_once once_use
  | reseed => exact .of_once once_use
  | newCallID => exact .of_once once_use
  | range k => exact .of_once (once_locked _)
  | posOrNegSmall k => exact .of_once (once_locked _)
  | posOrNegLarge k => exact .of_once (once_locked _)
  | _ => exact nomatch this

/-- The other calls of PRNG never come back, whoever makes them and however it is scheduled. -/
theorem C124_never_returns_counterexample (progs : List (List Call)) (i : Nat) (p : List Call) (c : Call)
    (hp : progs[i]? = some p) (hc : c ∈ p) (h : sound c = false) (sched : List Nat) (s : State)
    (hs : run (init acts progs) sched = some s) : ¬ Returned s i := by
  refine never_returns closed_acts progs i p c hp hc ?_ sched s hs
  cases c with
  | rand15B => exact ⟨[], _, rfl⟩
  | nonNeg => exact ⟨[], _, rfl⟩
  | positive k => exact ⟨[], _, rfl⟩
  | int64 => exact ⟨[], _, rfl⟩
  | bool => exact ⟨[], _, rfl⟩
  | posOrNegMax k => exact ⟨[], _, rfl⟩
  | _ => exact nomatch h

/-- And the first of them to be made stops all other goroutines at their next call. -/
theorem C124_stops_all_counterexample (progs : List (List Call)) (sched : List Nat) (s : State) (i : Nat) (as : List Act)
    (hs : run (init acts progs) sched = some s) (hi : s.rem[i]? = some (.lock :: .lock :: as)) (s' : State)
    (h : step s i = some s') : ∀ j, step s' j = none := by
  have hinv := ((Inv.init closed_acts progs).run sched hs)
  obtain ⟨a, bs, hb, hrem, hc⟩ := step_cases h
  rw [hi] at hb
  cases hb
  have hlt : i < s.rem.length := (List.getElem?_eq_some_iff.1 hi).1
  have hst : Stuck s' i := by
    refine ⟨?_, as, by rw [hrem, List.getElem?_set_self hlt]⟩
    rcases hc with ⟨_, _, hh⟩ | ⟨e, _⟩ | ⟨e, _⟩
    · exact hh
    · exact nomatch e
    · exact nomatch e
  intro j
  cases hj : step s' j with
  | none => rfl
  | some t => exact (hst.step (hinv.step h) hj).elim

/-- Two goroutines; one asks for a bool. -/
example : let s := init acts [[.bool], [.newCallID, .read]]
    (run s [1, 1, 1, 0]).map (fun s => (s.holder, s.rem)) =
      some (some 0, [[.lock, .use, .unlock, .unlock], [.lock, .use, .unlock]]) ∧
    run s [1, 1, 1, 0, 1] = none ∧ run s [1, 1, 1, 0, 0] = none := by decide

/-- C124 for tube's generator, with one exception. -/
theorem C124_tube_shareable_partial (progs : List (List TubeCall)) (h : ∀ p ∈ progs, ∀ c ∈ p, tubeSound c = true) :
    Shareable tubeActs progs := by
  refine shareable closed_tube progs fun p hp c hc => ?_
  have := h p hp c hc
  cases c with
  | nonNeg => exact .of_once once_use
  | positive k => exact nomatch this
  | int64 => exact .of_once once_use
  | bool => exact .of_once once_use
  | range k => exact .of_once (once_locked _)
  | posOrNegSmall k => exact .of_once (once_locked _)
  | posOrNegLarge k => exact .of_once (once_locked _)
  | posOrNegMax k => exact Closed1.replicate (.of_once once_use) _
  | float64prob k => exact .of_once (once_locked _)

/-- The exception. -/
theorem C124_tube_never_returns_counterexample (progs : List (List TubeCall)) (i : Nat) (p : List TubeCall) (again : Nat)
    (hp : progs[i]? = some p) (hc : .positive again ∈ p) (sched : List Nat) (s : State)
    (hs : run (init tubeActs progs) sched = some s) : ¬ Returned s i :=
  never_returns closed_tube progs i p _ hp hc ⟨[], _, rfl⟩ sched s hs

example : (run (init tubeActs [[.bool, .range 1], [.int64]]) [0, 0, 0, 1, 1, 1, 0, 0, 0, 0]).map (·.rem) =
    some [[], []] := by decide

end Verif.RandLock

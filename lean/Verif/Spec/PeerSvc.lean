import Verif.Model.PeerSvc
/-
Vocabulary for C112.
-/
namespace Verif.PeerSvc

/-- How often the service function has been registered in a series of operations. -/
def registrations (ops : List Op) : Nat := ops.count .register

/-- Number of entries in the table of a registration. -/
def State.count (s : State) (r : Nat) : Nat := ((s.table r).getD []).length

/-- The requests that make the host panic, when no instance leaves while they are handled. -/
def Harmful (lim : Nat) (s : State) (r : Nat) (q : Req) : Prop :=
  -- "take this id" without the argument, or with an argument that differs from ToPeerID
  (q.typ = .takeToID ∧ q.args ≠ some (some q.toID)) ∨
  -- "prefer the extant instance" while there are several
  (q.typ = .atMostOne ∧ 2 ≤ s.count r) ∨
  -- a plain request without arguments that would need a new instance, at the limit
  ((q.typ = .start ∨ q.typ = .startCircuit) ∧ q.args = none ∧ 0 < lim ∧ lim ≤ s.count r ∧
    ∀ e ∈ (s.table r).getD [], e.1 ≠ q.toID ∨ q.toID = [])

end Verif.PeerSvc

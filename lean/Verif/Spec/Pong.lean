import Verif.Model.Pong
/-
Specification for C38, in terms of the history of pongs only.
-/
namespace Verif.Pong.Spec

/-- When a peer was last heard from: the time of its latest pong in the history. -/
def lastHeard (hist : List Pong) (peer : String) : Option Nat :=
  (hist.reverse.find? fun p => decide (p.peer = peer)).map (·.tm)

/-- At least `q` different peers were last heard from at or after `t`. -/
def HeardSince (hist : List Pong) (q : Nat) (t : Nat) : Prop :=
  ∃ peers : List String, peers.Nodup ∧ q ≤ peers.length ∧
    ∀ p ∈ peers, ∃ u, lastHeard hist p = some u ∧ t ≤ u

end Verif.Pong.Spec

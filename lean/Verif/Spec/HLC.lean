import Verif.Model.HLC
namespace Verif.HLC.Spec

/-- Happened-before on the event indices of an execution. -/
inductive HappenedBefore (evs : List Ev) : Nat → Nat → Prop where
  /-- an earlier event on the same node -/
  | sameNode {i j : Nat} {a b : Ev} : evs[i]? = some a → evs[j]? = some b → i < j →
      a.node = b.node → HappenedBefore evs i j
  /-- the sending of the message that b receives -/
  | message {i j : Nat} {b : Ev} : evs[j]? = some b → b.from_ = some i → HappenedBefore evs i j
  | trans {i j k : Nat} : HappenedBefore evs i j → HappenedBefore evs j k → HappenedBefore evs i k

/-- Messages are received after they are sent. -/
def Causal (evs : List Ev) : Prop :=
  ∀ (j : Nat) (b : Ev) (i : Nat), evs[j]? = some b → b.from_ = some i → i < j

end Verif.HLC.Spec

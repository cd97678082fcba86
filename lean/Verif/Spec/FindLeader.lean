import Verif.Model.FindLeader

/-! What the answers mean that C140 is about. -/

namespace Verif.FindLeader

/-- The node, asked itself, says without an error that it is the leader; the own node only counts if
it is not a client. -/
def Claims (me : String) (a : Answer) : Prop :=
  a.leader ≠ "" ∧ a.leader = a.name ∧ (a.name = me → a.client = false) ∧ (a.name ≠ me → a.err = false)

/-- The own node's answer says that it is not the leader: it is a client or knows none. -/
def DeniesMe (me : String) (a : Answer) : Prop :=
  a.name = me ∧ (a.client = true ∨ a.leader = "")

/-- Another node's answer names a leader. -/
def Names (me : String) (x : Answer) : Prop :=
  x.name ≠ me ∧ x.pending = false ∧ x.err = false ∧ x.leader ≠ ""

end Verif.FindLeader

import Verif.Model.Membership
import Mathlib.Data.Finset.Card
/-
Specification vocabulary for membership changes.
-/
namespace Verif.Membership.Spec

/-- The member set of a configuration. -/
def members (mc : MC) : Finset String := mc.names.toFinset

/-- `q` is a majority of the member set `m`: more than half of its members. -/
def IsMajority (m q : Finset String) : Prop := q ⊆ m ∧ m.card < 2 * q.card

/-- Configuration order of the protocol: by term, then by version. -/
def Newer (i j : MC) : Prop := j.term < i.term ∨ (j.term = i.term ∧ j.version < i.version)

instance (i j : MC) : Decidable (Newer i j) := inferInstanceAs (Decidable (_ ∨ _))

/-- The configurations carried by a list of deliveries. -/
def carried : List Delivery → List MC
  | [] => []
  | .direct m :: ds => m :: carried ds
  | .stepDown (some m) :: ds => m :: carried ds
  | .snapshot (some m) :: ds => m :: carried ds
  | _ :: ds => carried ds

def isSnapshot : Delivery → Bool
  | .snapshot _ => true
  | _ => false

end Verif.Membership.Spec

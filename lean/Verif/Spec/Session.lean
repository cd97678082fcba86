import Verif.Model.Session
/- What a client may rely on at one node (C33). -/
namespace Verif.Session
variable {S α ρ : Type}

/-- What happens at one node: an entry is applied, or a request reaches it as leader that has
applied `applied` entries. -/
inductive Event (α : Type) where
  | apply (e : Entry α)
  | request (applied : Nat) (over : Bool) (t : Req α)

def Event.run (f : S → α → S × ρ) (n : Node S ρ) : Event α → Node S ρ
  | .apply e => applyEntry f n e
  | .request applied over t => (submit n applied over t).1

/-- The event neither ends session `sid`, nor acknowledges the answer to `serial`, nor applies
`serial` again. -/
def Event.Leaves (sid serial : Nat) : Event α → Prop
  | .apply (.endSess s) => s ≠ sid
  | .apply (.op s k m _ _) => s = sid → k ≠ serial ∧ m ≤ serial
  | .apply _ => True
  | .request _ over t => t.sid = sid → over = false ∧ t.minWait ≤ serial

end Verif.Session

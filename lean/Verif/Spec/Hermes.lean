import Verif.Model.Hermes
/-
What C49 and C50 speak about.
-/
namespace Verif.Hermes

/-- `a` is the same write as `b` or an older one. -/
def Le (H : Nat → Nat → Nat) (a b : TS) : Prop := a.compare H b ≠ .gt

/-- Node number `j` broadcast this write (an invalidation, with the ticket id). -/
def HasInv (s : Sys) (id : Nat) (ts : TS) (val : Option Nat) : Prop :=
  ∃ (j : Nat) (y : Node), s.nodes[j]? = some y ∧ .inv id j ts val ∈ y.sent

/-- Somebody wrote `val` with this timestamp. -/
def Issued (s : Sys) (ts : TS) (val : Option Nat) : Prop := ∃ id, HasInv s id ts val

/-- Nothing times out. -/
def NoExpiry (ops : List Op) : Prop := ∀ i, .expire i ∉ ops

/-- The answers node `j` gave between two states. -/
def newAnswers (s s' : Sys) (j : Nat) : List Done :=
  match s.nodes[j]?, s'.nodes[j]? with
  | some x, some x' => x'.log.drop x.log.length
  | _, _ => []

end Verif.Hermes

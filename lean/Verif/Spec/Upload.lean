import Verif.Model.Upload
/-
What C52 speaks about.
-/
namespace Verif.Upload

/-- The upload messages the read loop has accepted, in order. -/
def accepted (cap : Nat) : Srv → List Op → List Part
  | _, [] => []
  | s, op :: ops =>
    (match op with
      | .arrive p => if s.blocked = none then [p] else []
      | _ => []) ++ accepted cap (s.step cap op) ops

/-- Those of one upload. -/
def ofCall (u : Nat) (ps : List Part) : List Part := ps.filter fun p => p.callID == u

/-- The messages of one upload as a client with no failed send produces them: numbered from
0, the first a begin, none after the end. -/
def Stream (ps : List Part) : Prop :=
  ∀ (i : Nat) (p : Part), ps[i]? = some p →
    p.streamPart = i ∧ (p.typ = .begin ↔ i = 0) ∧ (p.typ = .fin → i + 1 = ps.length)

/-- A cancellation that overtakes the upload's own goroutine. -/
def EarlyCancel (s : Srv) : Op → Prop
  | .cancel id => ∃ (w : Nat) (k : Work), s.works[w]? = some k ∧ k.req.callID = id ∧ k.st = .queued
  | _ => False

def NoEarlyCancel (cap : Nat) : Srv → List Op → Prop
  | _, [] => True
  | s, op :: ops => ¬ EarlyCancel s op ∧ NoEarlyCancel cap (s.step cap op) ops

/-- The user's function was given these messages, one call each, `last` with the end and only
with it. -/
def Given (k : Work) (ps : List Part) : Prop :=
  k.got = ps.map fun p => (p, decide (p.typ = .fin))

end Verif.Upload

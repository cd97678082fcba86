import Verif.Model.Raft
/-
The exchange by which a leader brings one follower's log up to date: AppendEntries, its
acknowledgement, and the next AppendEntries sent in answer (tube.go:9605-10034), for as long as
the leader's own log stays as it is. No compaction, as in `Verif.Model.Raft`; the transfer of a
snapshot is not followed.
-/
namespace Verif.Raft

/-- tube.go:9605-9750 `sendAppendEntriesTo`, begin index `beg`. At least one entry is sent, at
most `lim` more (the limit depends on message sizes, 9668-9682). -/
def sendTo (me : Nat) (n : Node) (beg lim : Nat) : Option AE :=
  if 1 ≤ beg ∧ beg ≤ n.log.length then
    some (mkAE me n beg (min (lim + 1) (n.log.length + 1 - beg)))
  else none

/-- tube.go:9753-10034 `handleAppendEntriesAck`: the AppendEntries sent in answer. `none`: nothing
is sent, or a snapshot (NeedSnapshotGap). -/
def answer (me : Nat) (n : Node) (m : Ack) (lim : Nat) : Option AE :=
  if m.term ≠ n.term ∨ n.role ≠ .leader ∨ m.leader ≠ (me, n.inc) then none
  else if m.rejected then
    if m.needSnap then none else sendTo me n (m.lcp + 1) lim
  else if m.lcp < n.log.length then sendTo me n (m.lcp + 1) lim
  else none

/-- The follower `f` (node `you`) after receiving `m` and then the answers the leader gives to its
acknowledgements, one per limit in `lims`. -/
def exchange (me you : Nat) (n f : Node) (m : AE) : List Nat → Node
  | [] => (handleAppendEntries you f m).1
  | lim :: lims =>
    match (handleAppendEntries you f m).2.bind fun a => answer me n a lim with
    | none => (handleAppendEntries you f m).1
    | some m' => exchange me you n (handleAppendEntries you f m).1 m' lims

/-- tube.go:8895 `sendAppendEntriesEmptyHeartbeat`. -/
def heartbeat (me : Nat) (n : Node) : AE := mkAE me n 0 0

end Verif.Raft

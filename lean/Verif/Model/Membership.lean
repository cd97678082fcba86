/-
Model of membership configurations, /repo/tube/tube.go.
Only the fields the decisions read are kept: peer names (the keys of the ordered map
`PeerNames`, so without duplicates), ConfigTerm and ConfigVersion. Peer details,
provenance, RaftLogIndex, shadow replicas and circuits are left out.
-/
namespace Verif.Membership

/-- tube.go `MemberConfig` (PeerNames keys, ConfigVersion, ConfigTerm). -/
structure MC where
  names : List String
  version : Int
  term : Int
deriving DecidableEq, Repr

/-- tube.go:13648-13654 `majority`. -/
def majority (mc : MC) : Nat :=
  let tot := mc.names.length
  if tot = 0 then 0 else tot / 2 + 1

/-- tube.go:17160-17181, the two loops collecting the names found in the other
configuration: walk the smaller one. The map used there as a set is the list of
those names (they are keys of an ordered map, hence distinct). -/
def intersection (cur new : MC) : List String :=
  if cur.names.length < new.names.length then cur.names.filter fun n => decide (n ∈ new.names)
  else new.names.filter fun n => decide (n ∈ cur.names)

/-- tube.go:17156-17187 `quorumsOverlap`. -/
def quorumsOverlap (cur new : MC) : Bool :=
  let need0 := majority cur
  let need1 := majority new
  if need0 = 0 ∨ need1 = 0 then true
  else decide (need0 + need1 > cur.names.length + new.names.length - (intersection cur new).length)

/-- tube.go:13657-13665 `VersionGT`. -/
def versionGT (i j : MC) : Bool :=
  if i.term > j.term then true
  else if i.term = j.term then decide (i.version > j.version)
  else false

/-- tube.go:13667-13675 `VersionGTE`. -/
def versionGTE (i j : MC) : Bool :=
  if i.term > j.term then true
  else if i.term = j.term then decide (i.version ≥ j.version)
  else false

/-- tube.go:13677-13680 `VersionEqual`. -/
def versionEqual (i j : MC) : Bool := decide (i.term = j.term ∧ i.version = j.version)

/-- tube.go:14713-14759 `setMC`: the node's configuration after being handed `m`.
The copy made by CloneForUpdate (13884) keeps names, version and term. -/
def setMC (cur : Option MC) (m : MC) : Option MC :=
  match cur with
  | none => some m
  | some c => if versionGTE c m then some c else some m

/-- tube.go:6553-6567, the configuration part of `becomeFollower`. -/
def becomeFollowerMC (cur : Option MC) (m : Option MC) : Option MC :=
  match m, cur with
  | some m, some c => if versionGT m c then setMC cur m else cur
  | _, _ => cur

/-- tube.go:17677-17679: installing a state snapshot replaces the configuration
without looking at versions. -/
def snapshotMC (cur : Option MC) (m : Option MC) : Option MC :=
  match m with
  | some m => some m
  | none => cur

/-- How a configuration reaches a node: handed to `setMC` (append-entries 7753, log
apply 10368, reconfiguration 14631), through `becomeFollower`, or inside a snapshot. -/
inductive Delivery where
  | direct (m : MC)
  | stepDown (m : Option MC)
  | snapshot (m : Option MC)
deriving DecidableEq, Repr

def deliver (cur : Option MC) : Delivery → Option MC
  | .direct m => setMC cur m
  | .stepDown m => becomeFollowerMC cur m
  | .snapshot m => snapshotMC cur m

end Verif.Membership

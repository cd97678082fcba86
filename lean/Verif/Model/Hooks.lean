import Verif.Model.Omap
import Verif.Model.Art

/-!
# Save and load hooks

Some structs keep data in fields that are not encoded.  `PreSaveHook` copies it
to encoded fields before `MarshalMsg` writes them, `PostLoadHook` rebuilds it
after `UnmarshalMsg` (called at the top and the bottom of the generated
functions, hdr_gen.go 758-760 and 1185-1187).  What is between, the encoding of
the copied fields, is C66.

The order in which Go ranges over a map is not fixed: where a hook does that,
the model takes the list of pairs in the order of that run as an argument.
-/

namespace Verif.Hooks

open Omap

variable {K V : Type} [KeyOrder K] [DecidableEq K]

/-- `MemberConfig.PreSaveHook` (tube/tube.go 13686-13694) and
`ReliableMembershipList.PreSaveHook` (tube/czar.go 2010-2018): the map, whose
cache may be filled, and `SerzPeerDetails`. -/
def membersSave (m : Omap K V) : Omap K V × List V := ((cached m).1, (cached m).2.map (·.2))

/-- `MemberConfig.PostLoadHook` (tube/tube.go 13696-13702) and
`ReliableMembershipList.PostLoadHook` (tube/czar.go 2020-2026): `name` is
`d.Name`, or `d.Det.Name`.  A nil detail would be a nil dereference. -/
def membersLoad (name : V → K) (serz : List V) : Omap K V :=
  serz.foldl (fun m d => (set m (name d) d).1) {}

/-- `SessionTableEntry.PreSaveHook` (tube/tube.go 5919-5928) and
`ExternalCluster.PreSaveHook` (tube/tube.go 14851-14860): the pairs of `Serz`. -/
def entriesSave (m : Omap K V) : Omap K V × List (K × V) := cached m

/-- `ExternalCluster.PostLoadHook` (tube/tube.go 14862-14868) and the part of
`SessionTableEntry.PostLoadHook` for `Serial2Ticket` (tube/tube.go 5930-5938). -/
def entriesLoad (serz : List (K × V)) : Omap K V := serz.foldl (fun m kv => (set m kv.1 kv.2).1) {}

/-- The rest of `SessionTableEntry.PostLoadHook`: `ticketID2tkt`, as a function
(tube/tube.go 5931-5936). -/
def ticketIndex {I : Type} [DecidableEq I] (id : V → I) (serz : List (K × V)) : I → Option V :=
  serz.foldl (fun f kv i => if i = id kv.2 then some kv.2 else f i) fun _ => none

/-- `KVStore.PreSaveHook` (tube/kv.go 83-91): `Keys` and `Vals`, from the pairs
of the map in the order of this run. -/
def storeSave (pairs : List (K × V)) : List K × List V := (pairs.map (·.1), pairs.map (·.2))

/-- `KVStore.PostLoadHook` (tube/kv.go 93-104): into a store that has the map
`m` (empty if nil).  `none`: `Vals[i]` is out of range. -/
def storeLoad (m : K → Option V) : List K → List V → Option (K → Option V)
  | [], _ => some m
  | _ :: _, [] => none
  | k :: ks, v :: vs => storeLoad (fun j => if j = k then some v else m j) ks vs

/-- `Tree.PreSaveHook` (tube/art/saver.go 42-60): `Leafz`.  `none`: there are
more or fewer leaves than `size`, an index out of range or the panic. -/
def treeSave (t : Art.Tree V) : Option (List (Art.Key × V)) :=
  let leaves := t.drain (t.size + 1) (t.iter [] [])
  if leaves.length = t.size then some leaves else none

/-- `Tree.PostLoadHook` (tube/art/saver.go 29-40), into a tree `t`.  `none`: an
insert panics. -/
def treeLoad (t : Art.Tree V) : List (Art.Key × V) → Option (Art.Tree V)
  | [] => some t
  | lf :: l => (t.insert lf.1 lf.2).bind fun r => treeLoad r.1 l

/-- The fields of `Ticket` for its error: `Err`, by its text, and `Errs`. -/
structure TicketErr where
  err : Option (List UInt8) := none
  errs : List UInt8 := []
deriving DecidableEq, Repr

/-- `Ticket.PreSaveHook` (tube/tube.go 4317-4321). -/
def TicketErr.preSave (t : TicketErr) : TicketErr :=
  match t.err with
  | some e => { t with errs := e }
  | none => t

/-- `Ticket.PostLoadHook` (tube/tube.go 4323-4327). -/
def TicketErr.postLoad (t : TicketErr) : TicketErr :=
  if t.errs = [] then t else { t with err := some t.errs }

/-- A ticket that is saved, and what another process loads into a new one: only
`Errs` is encoded. -/
def TicketErr.transfer (t : TicketErr) : TicketErr := TicketErr.postLoad { errs := t.preSave.errs }

end Verif.Hooks

import Verif.Model.Frag
/-
Model of the pool of fragments: /repo/ckt.go `peerAPI.newFragment`, `freeFragment`,
`LocalPeer.NewFragment`, `FreeFragment` and the part of `LocalPeer.SendOneWay` that touches the
fragment. A fragment is named by its place in `heap`, which stands for its pointer.
-/
namespace Verif.FragPool

open Verif.Frag

/-- `heap`: every fragment ever allocated; `pool`: peerAPI.recycledFrag; `last`: hdr.go:156
lastSerialPrivate (unbounded here). History: `issued` are the serials handed out so far, `sent` the
messages given to the connection, and `held` the fragments that belong to some caller: taken with
NewFragment, not yet given back with FreeFragment or to SendOneWay. -/
structure State where
  heap : List Fragment := []
  pool : List Nat := []
  last : Nat := 0
  issued : List Nat := []
  sent : List Message := []
  held : List Nat := []
deriving DecidableEq, Repr

/-- ckt.go:267-272, 1475-1489 `newFragment` and 532-538 `LocalPeer.NewFragment`, with hdr.go:158
issueSerial: the new state and the pointer returned. -/
def newFragment (s : State) (peerName : Str) : State × Nat :=
  let n := s.last + 1
  match s.pool with
  | [] =>
    ({ s with
       heap := s.heap ++ [{ serial := n, fromPeerName := peerName }]
       last := n
       issued := s.issued ++ [n]
       held := s.heap.length :: s.held }, s.heap.length)
  | p :: rest =>
    ({ s with
       heap := s.heap.modify p (fun f => { f with serial := n, fromPeerName := peerName })
       pool := rest
       last := n
       issued := s.issued ++ [n]
       held := p :: s.held }, p)

/-- ckt.go:1491-1496 `freeFragment`: `*frag = Fragment{}`, appended to the pool. -/
def freeFragment (s : State) (p : Nat) : State :=
  { s with
    heap := s.heap.set p {}
    pool := s.pool ++ [p]
    held := s.held.erase p }

/-- ckt.go:706-729: the fields SendOneWay sets on the caller's fragment. -/
def address (c : Circuit) (f : Fragment) : Fragment :=
  { f with
    circuitID := c.circuitID
    fromPeerID := c.localPeerID
    fromPeerName := c.localPeerName
    toPeerID := c.remotePeerID
    toPeerName := c.remotePeerName
    toPeerServiceName := fillBlank f.toPeerServiceName c.remoteServiceName
    toPeerServiceNameVersion := fillBlank f.toPeerServiceNameVersion c.remotePeerServiceNameVersion
    fromPeerServiceName := fillBlank f.fromPeerServiceName c.localServiceName
    fromPeerServiceNameVersion := fillBlank f.fromPeerServiceNameVersion c.localPeerServiceNameVersion }

/-- What SendOneWay returns: ErrHaltRequested, ErrContextCancelledCkt, ErrContextCancelledPeer,
ErrContextCancelled (ckt.go:693-703 and 751-776), or what the connection reports. -/
inductive Err | halt | cktDone | peerDone | ctxDone | write
deriving DecidableEq, Repr

/-- How a call of SendOneWay goes: refused by the check at its top, or past it with a result. -/
inductive Outcome
  | refused (e : Err)
  | done (e : Option Err)
deriving DecidableEq, Repr

def Outcome.result : Outcome → Option Err
  | .refused e => some e
  | .done e => e

/-- ckt.go:685-777 `SendOneWay`. `fresh` and `now` are as in Model/Frag. `addUserMeta`, which adds
entries to the message's Args, is left out. -/
def sendOneWay (s : State) (p : Nat) (c : Circuit) (keep : Int) (now fresh : Int) (o : Outcome) :
    State :=
  match o with
  | .refused _ => s
  | .done _ =>
    let f := address c (s.heap[p]?.getD {})
    let s := { s with
      heap := s.heap.set p f
      sent := s.sent ++ [convertFragmentToMessage now fresh c f] }
    if keep ≤ 0 then freeFragment s p else s

/-- What callers do. -/
inductive Op
  | new (peerName : Str)
  /-- the caller fills in its fragment -/
  | write (p : Nat) (f : Fragment)
  | free (p : Nat)
  | send (p : Nat) (c : Circuit) (keep now fresh : Int) (o : Outcome)
  /-- some other part of the program takes a serial -/
  | issue

def step (s : State) : Op → State
  | .new name => (newFragment s name).1
  | .write p f => { s with heap := s.heap.set p f }
  | .free p => freeFragment s p
  | .send p c keep now fresh o => sendOneWay s p c keep now fresh o
  | .issue => { s with last := s.last + 1, issued := s.issued ++ [s.last + 1] }

def run (s : State) (ops : List Op) : State := ops.foldl step s

end Verif.FragPool

/-
Model of the Hermes replicated store, /repo/tube/hermes/hermes.go, for one key: every table
of a node except `ckt` is per key or holds tickets of one key each, and no operation touches
two keys.

Nodes are numbered; the number stands for the PeerID. TicketIDs (rpc.NewCallID, random) are
numbers that never repeat. Modelled is the configuration in the source,
`useBcastAckOptimization = true` (line 866), so VALIDATE messages are never sent. RMW tickets
are left out: no function outside the package's internals makes one (Write and Read only make
WRITE and READ tickets). Messages that a node drops (no operating lease, other epoch) or that
the network loses are simply never delivered; a node that stops takes no more steps.
-/
namespace Verif.Hermes

/-- hermes.go:38-41 `TS`. The version is an int64 in the code; wrapping round is left out. -/
structure TS where
  version : Nat
  coord : Nat
deriving DecidableEq, Repr

/-- hermes.go:48-97 `TS.Compare`: -1, 0 and 1 are lt, eq and gt. `H v id` is the keyed blake3
hash of an id under version `v`, as a number (bytes.Compare of two 64 byte sums). -/
def TS.compare (H : Nat → Nat → Nat) (a b : TS) : Ordering :=
  if a.version < b.version then .lt
  else if b.version < a.version then .gt
  else if a.coord = b.coord then .eq
  else if H a.version a.coord ≤ H a.version b.coord then .lt
  else .gt

/-- hermes.go:1809-1820 `HermesKeyState`. -/
inductive KSt | valid | invalid | write | replay | invalidWR
deriving DecidableEq, Repr

/-- hermes.go:479-488 `KeyMeta`; a nil Val is none. IsRMW is left out. -/
structure KeyMeta where
  ts : TS
  val : Option Nat
  st : KSt
  lastWriter : Nat
deriving DecidableEq, Repr

/-- hermes.go:1942-1950 `TicketOp`. -/
inductive TOp | read | write
deriving DecidableEq, Repr

/-- hermes.go:1869-1928 `HermesTicket`: `acks` are the keys of ackVector, `hasKey` is
`keym != nil`. -/
structure Ticket where
  id : Nat
  op : TOp
  val : Option Nat
  ts : TS
  fromID : Nat
  pseudo : Bool := false
  acks : List Nat := []
  hasKey : Bool := true
deriving DecidableEq, Repr

/-- hermes.go:131-147 `INV` and `ACK`. -/
inductive Msg
  | inv (id frm : Nat) (ts : TS) (val : Option Nat)
  | ack (id frm : Nat) (ts : TS)
deriving DecidableEq, Repr

/-- What a client's Write or Read returned: `wrote id val ts ok`, where not ok is ErrOverWrit. -/
inductive Done
  | wrote (id : Nat) (val : Option Nat) (ts : TS) (ok : Bool)
  | read (id : Nat) (val : Option Nat) (ts : TS)
  | notFound (id : Nat)
deriving DecidableEq, Repr

/-- hermes.go:1724-1787 `HermesNode`: the key's entry in `store`; `tkts` is tkt2item and at
the same time the key's list in key2items; `pq` is timeoutPQ: the deadline is always now plus
a constant, so it is in order of entry. `sent`, `log` and `seen` are histories: messages
broadcast, requests answered, invalidations processed. -/
structure Node where
  me : Nat
  key : Option KeyMeta := none
  tkts : List Ticket := []
  pq : List Nat := []
  panicked : Bool := false
  sent : List Msg := []
  log : List Done := []
  seen : List Msg := []
deriving DecidableEq, Repr

/-- hermes.go:1712-1720 `getTicket`. -/
def Node.ticket (s : Node) (id : Nat) : Option Ticket := s.tkts.find? fun t => t.id == id

/-- hermes.go:1206-1258 `deleteTicket`. -/
def Node.deleteTicket (s : Node) (id : Nat) (wasWrite : Bool) : Node :=
  match s.ticket id with
  | none => if wasWrite then { s with panicked := true } else s
  | some _ => { s with tkts := s.tkts.filter (fun t => t.id ≠ id), pq := s.pq.filter (· ≠ id) }

/-- hermes.go:207-268 `actionAbRecordPending`. A ticket that was popped from the queue is
deleted and entered again. -/
def Node.record (s : Node) (t : Ticket) : Node :=
  match s.ticket t.id with
  | some _ =>
    if t.id ∈ s.pq then { s with pq := s.pq.filter (· ≠ t.id) ++ [t.id] }
    else { s with tkts := s.tkts.filter (fun x => x.id ≠ t.id) ++ [t], pq := s.pq ++ [t.id] }
  | none => { s with tkts := s.tkts ++ [t], pq := s.pq ++ [t.id] }

/-- Change the ticket with this id (the code holds a pointer to it). -/
def Node.modify (s : Node) (id : Nat) (f : Ticket → Ticket) : Node :=
  { s with tkts := s.tkts.map fun t => if t.id = id then f t else t }

/-- `tkt.ackVector[j] = true`. -/
def addAck (j : Nat) (t : Ticket) : Ticket :=
  { t with acks := if j ∈ t.acks then t.acks else j :: t.acks }

/-- hermes.go:1173-1204 `unblockReadsFor`: all waiting reads return the key's value. -/
def Node.unblockReads (s : Node) (k : KeyMeta) : Node :=
  let rs := s.tkts.filter fun t => t.op = .read
  { s with tkts := s.tkts.filter (fun t => t.op ≠ .read),
           pq := s.pq.filter (fun id => !rs.any (fun t => t.id == id)),
           log := s.log ++ rs.map fun t => .read t.id k.val k.ts }

/-- Broadcast (hermes.go:513-531 `bcastInval`, 869-923 `ack`). -/
def Node.bcast (s : Node) (m : Msg) : Node := { s with sent := s.sent ++ [m] }

/-- hermes.go:869-923 `ack`. -/
def Node.ack (s : Node) (id : Nat) (ts : TS) : Node := s.bcast (.ack id s.me ts)

/-- hermes.go:1118-1154 `completeWrite`. Nobody waits for a pseudo ticket. -/
def Node.completeWrite (s : Node) (k : KeyMeta) (id : Nat) : Node :=
  match s.ticket id with
  | none => { s with panicked := true }
  | some t =>
    let k := { k with val := t.val, ts := t.ts, lastWriter := t.fromID }
    let s := { s.deleteTicket id true with key := some k }
    let s := if t.pseudo then s else { s with log := s.log ++ [.wrote id t.val t.ts true] }
    s.unblockReads k

/-- hermes.go:294-314, the loop of `releaseDiscardedWriter`. It ranges over the slice that
deleteTicket shortens in place: `arr` is the backing array as the loop sees it (its length
never changes), `cur` the shortened slice at its front, both as ticket ids; `i` counts up.
A ticket seen a second time is not found any more, and deleteTicket panics. `fuel` is the
number of rounds left. -/
def Node.releaseLoop (H : Nat → Nat → Nat) (s : Node) (k : KeyMeta) (orig : List Ticket) :
    (fuel : Nat) → (arr cur : List Nat) → (i : Nat) → Node
  | 0, _, _, _ => s
  | fuel + 1, arr, cur, i =>
    match arr[i]? with
    | none => s
    | some id =>
      match orig.find? fun t => t.id == id with
      | none => s.releaseLoop H k orig fuel arr cur (i + 1)
      | some t =>
        if t.op = .write ∧ t.fromID = k.lastWriter ∧ k.ts.compare H t.ts = .eq then
          let s' := s.deleteTicket id true
          if s'.panicked then s'
          else
            let cur' := cur.erase id
            let s' := if t.pseudo then s' else { s' with log := s'.log ++ [.wrote id t.val t.ts false] }
            s'.releaseLoop H k orig fuel (cur' ++ arr.drop cur'.length) cur' (i + 1)
        else s.releaseLoop H k orig fuel arr cur (i + 1)

/-- hermes.go:272-316 `releaseDiscardedWriter`. LastWriterID is never empty here. -/
def Node.release (H : Nat → Nat → Nat) (s : Node) (k : KeyMeta) : Node :=
  let ids := s.tkts.map (·.id)
  s.releaseLoop H k s.tkts s.tkts.length ids ids 0

/-- hermes.go:340-377, the end of `actionI` for more than two replicas: a pseudo ticket
collects the ACKs. -/
def Node.invTicket (s : Node) (id frm : Nat) (ts : TS) (val : Option Nat) : Node :=
  let s := match s.ticket id with
    | none => s.record { id, op := .write, val, ts, fromID := frm, pseudo := true }
    | some _ =>
      s.modify id fun t => if t.pseudo then { t with val := val, ts := ts, hasKey := true } else t
  s.modify id (addAck frm)

/-- hermes.go:322-377 `actionI`; `n` is ReplicationDegree. The state afterwards is for the
caller to set, when there are more than two replicas. -/
def Node.actionI (n : Nat) (s : Node) (k : KeyMeta) (id frm : Nat) (ts : TS) (val : Option Nat) :
    Node × KeyMeta :=
  let k := { k with ts := ts, val := val, lastWriter := frm }
  if n ≤ 2 then
    let k := { k with st := .valid }
    (s.unblockReads k, k)
  else (s.invTicket id frm ts val, k)

/-- The state after actionI in recvInvalidate (hermes.go:1049-1096). -/
def invState : KSt → KSt
  | .valid => .invalid
  | .invalid => .invalid
  | .invalidWR => .invalidWR
  | .write => .invalidWR
  | .replay => .invalidWR

/-- hermes.go:1103-1112, the end of `recvInvalidate`: with two replicas the key is valid. -/
def Node.invDone (n : Nat) (s : Node) (k : KeyMeta) : Node :=
  if n ≤ 2 then
    let k := { k with st := .valid }
    { s with key := some k }.unblockReads k
  else { s with key := some k }

/-- hermes.go:943-1115 `recvInvalidate`, for writes. -/
def Node.recvInv (H : Nat → Nat → Nat) (n : Nat) (s : Node) (id frm : Nat) (ts : TS)
    (val : Option Nat) : Node :=
  let k := s.key.getD { ts := ts, val := val, st := .invalid, lastWriter := frm }
  let s := { s with key := some k }
  match ts.compare H k.ts with
  | .eq =>
    let (s, k) := s.actionI n k id frm ts val
    (s.ack id ts).invDone n k
  | .lt => (s.ack id ts).invDone n k
  | .gt =>
    let s := if k.st = .write ∨ k.st = .replay then s.release H k else s
    if s.panicked then s
    else
      let (s, k') := s.actionI n k id frm ts val
      (s.ack id ts).invDone n { k' with st := invState k.st }

/-- hermes.go:444-453 the count in `actionLA`. -/
def isLast (n : Nat) (t : Ticket) : Bool := decide (n - 1 ≤ t.acks.length + 1)

/-- hermes.go:1271-1294 and 1317-1340: the ticket the ACK is for, or a new pseudo ticket, with
the ACK counted. -/
def Node.ackTicket (s : Node) (id frm : Nat) (ts : TS) : Node :=
  let s := match s.ticket id with
    | none => s.record { id, op := .write, val := none, ts, fromID := frm, pseudo := true,
                         hasKey := s.key.isSome }
    | some _ => s
  s.modify id (addAck frm)

/-- hermes.go:1366-1484 the switch on the state in `recvAck`, for an ACK of the key's current
timestamp; `t` is the ticket. In state Write a ticket that is not a write panics. -/
def Node.ackState (n : Nat) (s : Node) (k : KeyMeta) (t : Ticket) : Node :=
  match k.st with
  | .valid => s
  | .invalid =>
    if isLast n t then
      let s := s.modify t.id fun x => { x with ts := k.ts, val := k.val }
      let k := { k with st := .valid }
      if t.op = .write then { s with key := some k }.completeWrite k t.id
      else { s with key := some k }.unblockReads k
    else s
  | .invalidWR =>
    if isLast n t then
      let k := { k with st := .valid }
      if t.op = .write then { s with key := some k }.completeWrite k t.id
      else { s with key := some k }.unblockReads k
    else s
  | .write =>
    if t.op ≠ .write then { s with panicked := true }
    else if isLast n t then
      let k := { k with st := .valid }
      { s with key := some k }.completeWrite k t.id
    else s
  | .replay =>
    if isLast n t then
      let k := { k with st := .valid }
      { s with key := some k }.unblockReads k
    else s

/-- hermes.go:1260-1487 `recvAck`. -/
def Node.recvAck (H : Nat → Nat → Nat) (n : Nat) (s : Node) (id frm : Nat) (ts : TS) : Node :=
  match s.key with
  | none => s.ackTicket id frm ts
  | some k =>
    if (s.ticket id).isSome ∧ ts.compare H k.ts = .lt then s.deleteTicket id false
    else
      let s := s.ackTicket id frm ts
      match s.ticket id with
      | none => s
      | some t =>
        if t.val ≠ none ∧ n ≤ 2 then
          let k := { k with st := .valid }
          { s with key := some k }.completeWrite k id
        else if ts.compare H k.ts ≠ .eq then s
        else s.ackState n k t

/-- hermes.go:582-674 `readReq`; `wait` is `waitForValid >= 0`. The branch for a failed
coordinator (642-659) is never taken: a new ticket has no deadline yet. -/
def Node.readReq (n : Nat) (s : Node) (id : Nat) (wait : Bool) : Node :=
  if s.key = none ∧ (n = 1 ∨ wait = false) then { s with log := s.log ++ [.notFound id] }
  else
    let k := s.key.getD { ts := ⟨0, s.me⟩, val := none, st := .invalid, lastWriter := s.me }
    let s := { s with key := some k }
    if k.st = .valid then
      let s := s.unblockReads k
      { s with log := s.log ++ [.read id k.val k.ts] }
    else s.record { id, op := .read, val := none, ts := k.ts, fromID := s.me }

/-- hermes.go:739-803, the second half of `writeReq` with `actionW` (379-397). -/
def Node.issue (s : Node) (k : KeyMeta) (id : Nat) (val : Option Nat) : Node :=
  match k.st with
  | .valid | .invalid =>
    let ts : TS := ⟨k.ts.version + 1, s.me⟩
    let s := { s with key := some { ts := ts, val := val, st := .write, lastWriter := s.me } }
    (s.record { id, op := .write, val, ts, fromID := s.me }).bcast (.inv id s.me ts val)
  | _ => { s with key := some k }.record { id, op := .write, val, ts := k.ts, fromID := s.me }

/-- hermes.go:682-806 `writeReq`. -/
def Node.writeReq (n : Nat) (s : Node) (id : Nat) (val : Option Nat) : Node :=
  match s.key with
  | none =>
    let k : KeyMeta := { ts := ⟨0, s.me⟩, val, st := .invalid, lastWriter := s.me }
    if n = 1 then
      { s with key := some { k with st := .valid }, log := s.log ++ [.wrote id val k.ts true] }
    else s.issue k id val
  | some k => s.issue k id val

/-- hermes.go:1557-1658 `checkCoordOrFollowerFailed`, one round: the first ticket of the queue
has passed its deadline. (A deadline passed by exactly nothing, line 1590, is left out.) -/
def Node.expire (s : Node) : Node :=
  match s.pq with
  | [] => s
  | id :: rest =>
    let s := { s with pq := rest }
    match s.ticket id with
    | none => s
    | some t =>
      if t.hasKey = false then { s with panicked := true }
      else match s.key with
      | none => { s with panicked := true }
      | some k =>
        match k.st with
        | .valid => s
        | .invalid =>
          let s := (s.record t).modify id fun x => { x with acks := [] }
          { s with key := some { k with st := .replay } }.bcast (.inv id s.me k.ts k.val)
        | .invalidWR =>
          if t.op = .write then s.completeWrite k id
          else
            let k := { k with st := .invalid }
            { s with key := some k }.unblockReads k
        | .write =>
          if t.op = .write then
            let k := { k with st := .valid }
            { s with key := some k }.completeWrite k id
          else s
        | .replay =>
          let k := { k with st := .valid }
          { s with key := some k }.unblockReads k

/-! ### The cluster -/

/-- The nodes, and the next ticket id. -/
structure Sys where
  nodes : List Node
  next : Nat := 0
deriving DecidableEq, Repr

/-- `n` nodes that have never heard of the key. -/
def Sys.init (n : Nat) : Sys := { nodes := (List.range n).map fun i => { me := i } }

inductive Op
  /-- A client calls Write at node i. -/
  | write (i : Nat) (val : Option Nat)
  /-- A client calls Read at node i. -/
  | read (i : Nat) (wait : Bool)
  /-- Node i gets the k-th message of node j. Any order, any number of times, or never. -/
  | deliver (i j k : Nat)
  /-- The next ticket of node i times out. -/
  | expire (i : Nat)
deriving DecidableEq, Repr

/-- hermes.go:2199-2246: a message is handled by its kind. -/
def Node.recv (H : Nat → Nat → Nat) (n : Nat) (s : Node) : Msg → Node
  | .inv id frm ts val =>
    let s := s.recvInv H n id frm ts val
    if s.panicked then s else { s with seen := s.seen ++ [.inv id frm ts val] }
  | .ack id frm ts => s.recvAck H n id frm ts

/-- One step of the main loop of a node, hermes.go:2141-2373. A node that panicked is gone. -/
def Sys.step (H : Nat → Nat → Nat) (s : Sys) (op : Op) : Sys :=
  let n := s.nodes.length
  let upd (i : Nat) (f : Node → Node) : Sys :=
    match s.nodes[i]? with
    | some x => if x.panicked then s else { s with nodes := s.nodes.set i (f x), next := s.next + 1 }
    | none => s
  match op with
  | .write i val => upd i fun x => x.writeReq n s.next val
  | .read i wait => upd i fun x => x.readReq n s.next wait
  | .deliver i j k =>
    match s.nodes[j]? with
    | some y =>
      match y.sent[k]? with
      | some m => if i = j then s else upd i fun x => x.recv H n m
      | none => s
    | none => s
  | .expire i => upd i fun x => x.expire

def Sys.run (H : Nat → Nat → Nat) (s : Sys) (ops : List Op) : Sys := ops.foldl (Sys.step H) s

end Verif.Hermes

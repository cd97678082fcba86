/-
The network simulator: simnet.go, simnet_repair.go, the queue orders of pq.go and the parts of
simnet_api.go that feed them.

Left out: timers (`dispatchTimers`), the event queue in front of the handlers (`distributeMEQ`: the
handlers run in any order here, which covers its random order within a time slice), batches, snapshots,
release of the finished calls (`fin`, `releaseReady`), logical clocks, and the statistics other than
the two counters that decide a drop.  Calls for a whole host (`handleAlterHost` simnet.go:1799-1850,
`injectHostFault` simnet_repair.go:197-233, `handleHostRepair` 235-279) run the handler for one node on
each node of the host, in the order of a Go map; they are covered as sequences of the operations below.
`allNewCircuitsInjectFault` (a host fault repeated when a client registers) is covered likewise, by
fault operations that follow the registration.
-/

namespace Verif.Simnet

/-- A simulated node (`*simnode`, simnet.go:913-958); the number stands for its name.  Simplified: the
name of a node that was closed is not used again. -/
abbrev Node := Nat

/-- A probability (`float64` in the code) as the fraction `num / (den + 1)`.  Simplified: exact
arithmetic instead of floating point; negative values, which the code treats like 0, do not occur. -/
structure Prob where
  num : Nat
  den : Nat
deriving DecidableEq, Repr

/-- Probability 0. -/
def Prob.zero : Prob := ⟨0, 0⟩
/-- Probability 1. -/
def Prob.one : Prob := ⟨1, 0⟩
/-- `p > 0`, as in simnet_repair.go:428-433. -/
def Prob.pos (p : Prob) : Bool := decide (0 < p.num)
/-- `p >= 1`, as in simnet.go:2027, 2072 and simnet_repair.go:455. -/
def Prob.sure (p : Prob) : Bool := decide (p.den + 1 ≤ p.num)

/-- `rngFloat64()` (simnet_api.go:171-175) gives `x / 2^53` with `x < 2^53`; `random01 < prob`
(simnet.go:1876, 1898, 1909). -/
def Prob.hit (p : Prob) (x : Nat) : Bool := decide (x % 2 ^ 53 * (p.den + 1) < p.num * 2 ^ 53)

/-- A pending send or read (`mop`, simnet.go:35-218).  `tie` stands for the rank given by the fields
that pq.go compares between the time and the serial number: priority, names of origin and target, file
and line, client or server (pq.go:149-232, 307-385).  `filtered` is `sendDropFilteringApplied`. -/
structure Mop where
  sn : Nat
  isSend : Bool
  origin : Node
  target : Node
  payload : List UInt8
  eof : Bool
  initTm : Nat
  arrivalTm : Nat
  tie : Nat
  filtered : Bool
deriving DecidableEq, Repr

/-- Order of the pre-arrival and dropped queues: `newPQarrivalTm`, pq.go:114-265.  For equal ranks the
code still compares the time of dispatch and then the serial number; here serial numbers are given in
the order of handling, so that both are the same comparison. -/
def Mop.arrBefore (a b : Mop) : Bool :=
  decide (a.arrivalTm < b.arrivalTm ∨
    (a.arrivalTm = b.arrivalTm ∧ (a.tie < b.tie ∨ (a.tie = b.tie ∧ a.sn < b.sn))))

/-- Order of the read and deaf queues: `newPQinitTm`, pq.go:269-395. -/
def Mop.initBefore (a b : Mop) : Bool :=
  decide (a.initTm < b.initTm ∨
    (a.initTm = b.initTm ∧ (a.tie < b.tie ∨ (a.tie = b.tie ∧ a.sn < b.sn))))

/-- The four message queues of a node (`newSimnode`, simnet.go:988-1005). -/
inductive QKind
  | readQ | preArrQ | deafReadQ | droppedSendQ
deriving DecidableEq, Repr

/-- A queue: which one, of which node. -/
abbrev Place := QKind × Node

/-- The order of each queue, simnet.go:992-996. -/
def QKind.before : QKind → Mop → Mop → Bool
  | .readQ => Mop.initBefore
  | .deafReadQ => Mop.initBefore
  | .preArrQ => Mop.arrBefore
  | .droppedSendQ => Mop.arrBefore

/-- Insert into a sorted list. -/
def insertBefore (lt : Mop → Mop → Bool) (m : Mop) : List Mop → List Mop
  | [] => [m]
  | x :: xs => if lt m x then m :: x :: xs else x :: insertBefore lt m xs

/-- `pq.add`, pq.go:76-86: an element equal to one in the tree (same serial number) is not added.  The
red-black tree is a sorted list here. -/
def addTo (k : QKind) (m : Mop) (q : List Mop) : List Mop :=
  if q.any (fun x => x.sn == m.sn) then q else insertBefore k.before m q

/-- `DeleteWithIterator`: take the element with this serial number out. -/
def delFrom (sn : Nat) (q : List Mop) : List Mop := q.filter (fun x => !(x.sn == sn))

/-- `Faultstate`, simnet_api.go:263-275. -/
inductive FState
  | healthy | faulty | isolated | faultyIsolated
deriving DecidableEq, Repr

/-- The `switch` of `statewiseConnected`, simnet.go:1964-1971. -/
def FState.isIsolated : FState → Bool
  | .isolated => true
  | .faultyIsolated => true
  | _ => false

/-- The local end of a connection (`simconn`, simnet_server.go:120-164): `deaf` is `deafRead`, `drop` is
`dropSend`, and the two counters that decide a drop.  The other counters are statistics. -/
structure Conn where
  deaf : Prob
  drop : Prob
  attempted : Nat
  droppedN : Nat
deriving DecidableEq, Repr

/-- `newSimconn`, simnet_server.go:166-171. -/
def Conn.fresh : Conn := ⟨Prob.zero, Prob.zero, 0, 0⟩

/-- The scenario (simnet_api.go:136-155): tick, hop times, and its random numbers as a stream. -/
structure Scen where
  tick : Nat
  minHop : Nat
  maxHop : Nat
  rng : Nat → Nat

/-- A completed read: the request, the message it was given, and when. -/
structure Done where
  read : Mop
  send : Mop
  at_ : Nat
deriving DecidableEq, Repr

/-- The simulated network (`Simnet`, simnet.go:731-910).  `q` gives each queue; `circ n` is
`circuits.get(n)`, its connections sorted by remote name; `all` lists the nodes in the order of the
`circuits` map, whose keys are the nodes with `circ n ≠ none`; `inDns`, `srvOf` (`node2server`),
`group` (`allnode`), `isCli`, `hasConn` (`cliConn != nil`) are the registration tables; `handed` lists
the connections given to callers; `pos` is the position in the random stream.

`sent`, `done` and `wiped` record what happened: messages accepted, reads completed (newest first), and
messages discarded with a queue.  `crashed` is set where the code panics. -/
structure Net where
  q : Place → List Mop
  circ : Node → Option (List (Node × Conn))
  state : Node → FState
  powerOff : Node → Bool
  all : List Node
  inDns : Node → Bool
  srvOf : Node → Option Node
  group : Node → List Node
  isCli : Node → Bool
  hasConn : Node → Bool
  handed : List (Node × Node)
  next : Nat
  pos : Nat
  sent : List Mop
  done : List Done
  wiped : List Mop
  crashed : Bool

/-- An empty network. -/
def init : Net where
  q := fun _ => []
  circ := fun _ => none
  state := fun _ => .healthy
  powerOff := fun _ => false
  all := []
  inDns := fun _ => false
  srvOf := fun _ => none
  group := fun _ => []
  isCli := fun _ => false
  hasConn := fun _ => false
  handed := []
  next := 0
  pos := 0
  sent := []
  done := []
  wiped := []
  crashed := false

/-- Change one value of a function. -/
def upd {α β : Type} [DecidableEq α] (f : α → β) (a : α) (b : β) : α → β :=
  fun x => if x = a then b else f x

/-- Put `m` into the queue `p`. -/
def Net.put (st : Net) (p : Place) (m : Mop) : Net := { st with q := upd st.q p (addTo p.1 m (st.q p)) }

/-- Take the element `sn` out of the queue `p`. -/
def Net.take (st : Net) (p : Place) (sn : Nat) : Net := { st with q := upd st.q p (delFrom sn (st.q p)) }

/-- Advance and delete behind, and add elsewhere: the pattern of all loops below. -/
def Net.move (st : Net) (m : Mop) (src dst : Place) : Net := (st.take src m.sn).put dst m

/-- The connection from `o` to `t`: `circuits.get(o).get(t)`. -/
def Net.conn (st : Net) (o t : Node) : Option Conn := (st.circ o).bind (fun l => l.lookup t)

/-- Change the connections of `o` that `sel` selects. -/
def Net.mapConns (st : Net) (o : Node) (sel : Node → Bool) (f : Conn → Conn) : Net :=
  { st with circ := upd st.circ o ((st.circ o).map (fun l => l.map (fun c => if sel c.1 then (c.1, f c.2) else c))) }

/-- `statewiseConnected`, simnet.go:1958-1973. -/
def Net.connected (st : Net) (o t : Node) : Bool :=
  !(st.powerOff o) && !(st.powerOff t) && !(st.state o).isIsolated && !(st.state t).isIsolated

/-- `target == nil || target == x`. -/
def sel (target : Option Node) (x : Node) : Bool :=
  match target with
  | none => true
  | some t => t == x

/-- Insert a connection into the sorted map of a node (`dmap.set`, dmap.go:254-288). -/
def setConn (t : Node) (c : Conn) : List (Node × Conn) → List (Node × Conn)
  | [] => [(t, c)]
  | x :: xs => if t < x.1 then (t, c) :: x :: xs else if t = x.1 then (t, c) :: xs else x :: setConn t c xs

/-- Insert a node into the sorted list of nodes. -/
def insNode (n : Node) : List Node → List Node
  | [] => [n]
  | x :: xs => if n < x then n :: x :: xs else x :: insNode n xs

/-! ### Registration -/

/-- `handleServerRegistration`, simnet.go:1024-1079.  A name that is taken panics.  Simplified: no
clients wait for this server (`orphans`). -/
def Net.addServer (st : Net) (n : Node) : Net :=
  if n ∈ st.all then { st with crashed := true }
  else
    { st with
      all := insNode n st.all
      circ := upd st.circ n (some [])
      inDns := upd st.inDns n true
      srvOf := upd st.srvOf n (some n)
      group := upd st.group n [n]
      isCli := upd st.isCli n false }

/-- `handleClientRegistration` with `addEdgeFromCli` and `addEdgeFromSrv`, simnet.go:1081-1205,
1343-1377.  `base` is the server this client belongs to, if any. -/
def Net.addClient (st : Net) (c s : Node) (base : Option Node) : Net :=
  if !(st.inDns s) || st.isCli s then st
  else if c ∈ st.all then { st with crashed := true }
  else
    let st := { st with
      all := insNode c st.all
      inDns := upd st.inDns c true
      isCli := upd st.isCli c true
      hasConn := upd st.hasConn c true
      circ := upd (upd st.circ c (some [(s, Conn.fresh)])) s
        (some (setConn c Conn.fresh ((st.circ s).getD [])))
      handed := (c, s) :: (s, c) :: st.handed }
    match base with
    | none => st
    | some b => { st with srvOf := upd st.srvOf c (some b), group := upd st.group b (c :: st.group b) }

/-! ### Sending and reading -/

/-- `rngHop`, simnet_api.go:177-192.  Simplified: one number of the stream, reduced to the range. -/
def Scen.hop (sc : Scen) (pos : Nat) : Nat :=
  if sc.maxHop ≤ sc.minHop then sc.minHop else sc.minHop + sc.rng pos % (sc.maxHop - sc.minHop)

/-- `handleSend`, simnet.go:1975-2041; the request comes from `sendMessage` (simnet_api.go:532-567) or
`msgWrite` (simnet_server.go:209-276) on a connection. -/
def Net.handleSend (sc : Scen) (st : Net) (o t : Node) (payload : List UInt8) (eof : Bool) (initTm tie : Nat) : Net :=
  if (o, t) ∉ st.handed then st
  else
    let m : Mop := { sn := st.next, isSend := true, origin := o, target := t, payload := payload, eof := eof,
                     initTm := initTm, arrivalTm := initTm + sc.hop st.pos + sc.tick, tie := tie, filtered := false }
    let st := { st with next := st.next + 1, pos := st.pos + 1, sent := m :: st.sent }
    match st.circ o with
    | none => st.put (.droppedSendQ, o) m
    | some l =>
      match l.lookup t with
      | none => { st with wiped := m :: st.wiped }
      | some c =>
        if !(st.connected o t) || c.drop.sure then st.put (.droppedSendQ, o) m
        else st.put (.preArrQ, t) m

/-- `handleRead`, simnet.go:2047-2085; the request comes from `readMessage` (simnet_api.go:494-530) or
`simconn.Read` (simnet_server.go:279-379).  Without circuits at the node the read fails at once; with
circuits but not this one the code dereferences nil. -/
def Net.handleRead (st : Net) (o t : Node) (initTm tie : Nat) : Net :=
  if (o, t) ∉ st.handed then st
  else
    let m : Mop := { sn := st.next, isSend := false, origin := o, target := t, payload := [], eof := false,
                     initTm := initTm, arrivalTm := 0, tie := tie, filtered := false }
    let st := { st with next := st.next + 1 }
    match st.circ o with
    | none => st
    | some l =>
      match l.lookup t with
      | none => { st with crashed := true }
      | some _ => st.put (.readQ, o) m

/-- `localDropSend`, simnet.go:1916-1955: the decision, the new counters, and the flag
`sendDropFilteringApplied` (returned with the message). -/
def Net.localDropSend (st : Net) (m : Mop) : Bool × Net × Mop :=
  match st.conn m.origin m.target with
  | none => (true, st, m)
  | some c =>
    let a := c.attempted + 1
    let drop := decide (c.droppedN * (c.drop.den + 1) < c.drop.num * a)
    let st := st.mapConns m.origin (· == m.target)
      (fun c => { c with attempted := c.attempted + 1, droppedN := if drop then c.droppedN + 1 else c.droppedN })
    (drop, st, if drop then m else { m with filtered := true })

/-- `localDeafRead`, simnet.go:1854-1888 (statistics left out); nil connection: the code panics. -/
def Net.localDeafRead (sc : Scen) (st : Net) (r : Mop) : Bool × Net :=
  match st.circ r.origin with
  | none => (true, st)
  | some l =>
    match l.lookup r.target with
    | none => (true, { st with crashed := true })
    | some c =>
      if c.deaf.num = 0 then (false, st)
      else (c.deaf.hit (sc.rng st.pos), { st with pos := st.pos + 1 })

/-- The inner loop of `dispatchReadsSends`, simnet.go:2244-2450: the rest of the pre-arrival queue from
`preIt` on, the read at `readIt` and the reads after it.  `none`: the function returns; `some rs`: the
inner loop ended, the outer loop goes on with `rs`. -/
def inner (sc : Scen) (now : Nat) (n : Node) : List Mop → Mop → List Mop → Net → Net × Option (List Mop)
  | [], _, rs, st => (st, some rs)
  | m :: ms, r, rs, st =>
    if r.target ≠ m.origin then inner sc now n ms r rs st
    else if now < m.arrivalTm then (st, some rs)
    else
      let d : Bool × Net × Mop := if m.filtered then (false, st, m) else st.localDropSend m
      let st := d.2.1
      let m' := d.2.2
      if !m.filtered && (!(st.connected m.origin m.target) || d.1) then
        inner sc now n ms r rs (((st.take (.preArrQ, n) m.sn).put (.droppedSendQ, m.origin) m'))
      else
        let e : Bool × Net := if !(st.connected r.origin r.target) then (true, st) else st.localDeafRead sc r
        let st := e.2
        if e.1 then
          inner sc now n ms r rs ((st.take (.preArrQ, n) m.sn).put (.deafReadQ, n) m')
        else if now < r.initTm then ({ st with crashed := true }, none)
        else
          let st := (st.take (.preArrQ, n) m.sn).take (.readQ, n) r.sn
          let st := { st with done := { read := r, send := m', at_ := now } :: st.done }
          match rs with
          | [] => (st, none)
          | r' :: rs' => inner sc now n ms r' rs' st

/-- The outer loop of `dispatchReadsSends`, simnet.go:2241-2455.  Every turn uses up at least one read,
so that the number of reads is enough fuel. -/
def outer (sc : Scen) (now : Nat) (n : Node) : Nat → List Mop → Net → Net
  | 0, _, st => st
  | _ + 1, [], st => st
  | k + 1, r :: rs, st =>
    match inner sc now n (st.q (.preArrQ, n)) r rs st with
    | (st, none) => st
    | (st, some rs') => outer sc now n k rs' st

/-- `dispatchReadsSends`, simnet.go:2220-2455, without a limit. -/
def Net.dispatchNode (sc : Scen) (now : Nat) (st : Net) (n : Node) : Net :=
  outer sc now n (st.q (.readQ, n)).length (st.q (.readQ, n)) st

/-- `dispatchAll`, simnet.go:2493-2507, for reads and sends. -/
def Net.dispatch (sc : Scen) (now : Nat) (st : Net) : Net :=
  (st.all.filter (fun n => (st.circ n).isSome)).foldl (fun st n => st.dispatchNode sc now n) st

/-! ### Faults, isolation, repair -/

/-- Move each of these messages of the queue `src`. -/
def Net.moveAll (st : Net) (src : Place) (dst : Mop → Place) (ms : List Mop) : Net :=
  ms.foldl (fun st m => st.move m src (dst m)) st

/-- `markFaulty`, simnet.go:1656-1671. -/
def FState.markFaulty : FState → FState
  | .isolated => .faultyIsolated
  | .healthy => .faulty
  | s => s

/-- `markNotFaulty`, simnet.go:1673-1689. -/
def FState.markNotFaulty : FState → FState
  | .faultyIsolated => .isolated
  | .faulty => .healthy
  | s => s

/-- `localCircuitFaultsPresent(origin, nil)`, simnet_repair.go:420-436. -/
def Net.faultsPresent (st : Net) (o : Node) : Bool :=
  ((st.circ o).getD []).any (fun c => c.2.deaf.pos || c.2.drop.pos)

/-- `localCircuitDeafForSure`, simnet_repair.go:441-461. -/
def Net.deafForSure (st : Net) (o t : Node) : Bool :=
  match st.circ o with
  | none => false
  | some l => l.all (fun c => !(t == c.1) || c.2.deaf.sure)

/-- `localCircuitNotDeafForSure`, simnet_repair.go:466-477. -/
def Net.notDeafForSure (st : Net) (o t : Node) : Bool :=
  ((st.circ o).getD []).all (fun c => !(t == c.1) || !c.2.deaf.pos)

/-- `transferPreArrQ_to_droppedSendQ`, simnet.go:1584-1594. -/
def Net.preArrToDropped (st : Net) (n : Node) : Net :=
  st.moveAll (.preArrQ, n) (fun m => (.droppedSendQ, m.origin)) (st.q (.preArrQ, n))

/-- `transferDeafReadsQ_to_readsQ`, simnet.go:1558-1576.  The queue holds unheard sends as well as
reads; the code moves both. -/
def Net.deafToRead (st : Net) (o : Node) (target : Option Node) : Net :=
  st.moveAll (.deafReadQ, o) (fun _ => (.readQ, o))
    ((st.q (.deafReadQ, o)).filter (fun m => sel target m.target && st.connected m.origin m.target))

/-- `timeWarp_transferDroppedSendQ_to_PreArrQ`, simnet.go:1604-1621. -/
def Net.droppedToPreArr (st : Net) (o : Node) (target : Option Node) : Net :=
  st.moveAll (.droppedSendQ, o) (fun m => (.preArrQ, m.target))
    ((st.q (.droppedSendQ, o)).filter (fun m => sel target m.target && st.connected m.origin m.target))

/-- The body of the loop of `timeWarp_transferDeafReadQsends_to_PreArrQ`, simnet.go:1629-1652, for one
remote; the panic for a send to another node is kept. -/
def Net.deafSendsToPreArr1 (st : Net) (remote : Node) : Net :=
  let sends := (st.q (.deafReadQ, remote)).filter (·.isSend)
  if sends.any (fun m => !(m.target == remote)) then { st with crashed := true }
  else st.moveAll (.deafReadQ, remote) (fun _ => (.preArrQ, remote))
    (sends.filter (fun m => st.connected m.origin m.target))

/-- `timeWarp_transferDeafReadQsends_to_PreArrQ`, simnet.go:1623-1654. -/
def Net.deafSendsToPreArr (st : Net) (o : Node) (target : Option Node) : Net :=
  ((((st.circ o).getD []).map Prod.fst).filter (sel target)).foldl Net.deafSendsToPreArr1 st

/-- `deliverDroppedSends`, simnet_repair.go:399-402. -/
def Net.deliverDropped (st : Net) (o : Node) (target : Option Node) : Net :=
  (st.droppedToPreArr o target).deafSendsToPreArr o target

/-- `equilibrateReads`, simnet_repair.go:125-195: both queues are scanned before anything is added. -/
def Net.equilibrate (st : Net) (o : Node) (target : Option Node) : Net :=
  let toRead := (st.q (.deafReadQ, o)).filter
    (fun m => sel target m.target && (st.connected m.origin m.target && st.notDeafForSure m.origin m.target))
  let toDeaf := (st.q (.readQ, o)).filter
    (fun m => sel target m.target && (!(st.connected m.origin m.target) || st.deafForSure m.origin m.target))
  (st.moveAll (.deafReadQ, o) (fun _ => (.readQ, o)) toRead).moveAll (.readQ, o) (fun _ => (.deafReadQ, o)) toDeaf

/-- `localDeafReadProb(read) >= 1`, simnet.go:1840-1847 as used in `applyFaultsToReadQ`. -/
def Net.readProbSure (st : Net) (r : Mop) : Option Bool :=
  match st.circ r.origin with
  | none => some true
  | some l => (l.lookup r.target).map (fun c => c.deaf.sure)

/-- `applyFaultsToReadQ`, simnet_repair.go:495-517.  A missing connection panics. -/
def Net.applyReadFaults (st : Net) (o : Node) (target : Option Node) : Net :=
  let ms := (st.q (.readQ, o)).filter (fun m => sel target m.target)
  if ms.any (fun m => st.connected m.origin m.target && (st.readProbSure m).isNone) then { st with crashed := true }
  else st.moveAll (.readQ, o) (fun _ => (.deafReadQ, o))
    (ms.filter (fun m => !(st.connected m.origin m.target) || st.readProbSure m == some true))

/-- `dropped(prob)`, simnet.go:1901-1910. -/
def Net.roll (sc : Scen) (st : Net) (p : Prob) : Bool × Net :=
  if p.num = 0 then (false, st)
  else if p.sure then (true, st)
  else (p.hit (sc.rng st.pos), { st with pos := st.pos + 1 })

/-- The inner loop of `applySendFaults`, simnet_repair.go:537-578, over the pre-arrival queue of `other`. -/
def sendFaults1 (sc : Scen) (now : Nat) (o other : Node) (p : Prob) : List Mop → Net → Net
  | [], st => st
  | m :: ms, st =>
    if m.arrivalTm < now then sendFaults1 sc now o other p ms st
    else if m.origin ≠ o then sendFaults1 sc now o other p ms st
    else if !(st.connected m.origin m.target) then
      sendFaults1 sc now o other p ms (st.move m (.preArrQ, other) (.droppedSendQ, o))
    else
      let d := st.roll sc p
      if d.1 then sendFaults1 sc now o other p ms (d.2.move m (.preArrQ, other) (.droppedSendQ, o))
      else sendFaults1 sc now o other p ms d.2

/-- `applySendFaults`, simnet_repair.go:519-580. -/
def Net.applySendFaults (sc : Scen) (now : Nat) (st : Net) (o : Node) (target : Option Node) (p : Prob) : Net :=
  ((st.all.filter (fun x => (st.circ x).isSome)).filter (fun x => !(x == o) && sel target x)).foldl
    (fun st other => sendFaults1 sc now o other p (st.q (.preArrQ, other)) st) st

/-- `DropDeafSpec`, simnet_api.go:312-330: new probabilities where the update flag is set. -/
structure Spec where
  deaf : Option Prob
  drop : Option Prob
deriving DecidableEq, Repr

/-- `injectCircuitFault`, simnet_repair.go:10-92.  Deferred calls run last to first: first
`equilibrateReads`, then `deliverDroppedSends`.  `applyFaultsToPQ` (482-493) is unfolded. -/
def Net.faultCkt (sc : Scen) (now : Nat) (st : Net) (o : Node) (target : Option Node) (dd : Spec) (deliver : Bool) : Net :=
  if !(st.inDns o) then st
  else if !((target.map st.inDns).getD true) then st
  else
    let st :=
      match st.circ o with
      | none => st
      | some _ =>
        let st := st.mapConns o (sel target)
          (fun c => { c with deaf := dd.deaf.getD c.deaf, drop := dd.drop.getD c.drop })
        let fs := if st.faultsPresent o then (st.state o).markFaulty else (st.state o).markNotFaulty
        let st := { st with state := upd st.state o fs }
        let st := match dd.deaf with
          | some p => if p.pos then st.applyReadFaults o target else st
          | none => st
        let st := match dd.drop with
          | some p => if p.pos then st.applySendFaults sc now o target p else st
          | none => st
        st.equilibrate o target
    if deliver then st.deliverDropped o target else st

/-- `isolateSimnode`, simnet.go:1509-1530. -/
def Net.isolate (st : Net) (n : Node) : Net :=
  if !(st.inDns n) then st
  else
    match st.state n with
    | .isolated => st
    | .faultyIsolated => st
    | .faulty => ({ st with state := upd st.state n .faultyIsolated }).preArrToDropped n
    | .healthy => ({ st with state := upd st.state n .isolated }).preArrToDropped n

/-- The second half of `unIsolateSimnode`, simnet.go:1712-1731. -/
def Net.unIsolateReads (st : Net) (n : Node) : Net :=
  (((st.circ n).getD []).map Prod.fst).foldl (fun st remote => st.equilibrate remote (some n)) (st.equilibrate n none)

/-- `unIsolateSimnode`, simnet.go:1691-1734. -/
def Net.unIsolate (st : Net) (n : Node) : Net :=
  match st.state n with
  | .isolated => ({ st with state := upd st.state n .healthy }).unIsolateReads n
  | .faultyIsolated => ({ st with state := upd st.state n .faulty }).unIsolateReads n
  | .faulty => st
  | .healthy => st

/-- `conn.repair`, simnet_repair.go:404-415. -/
def Conn.repair (c : Conn) : Conn := { c with deaf := Prob.zero, drop := Prob.zero }

/-- `repairAllCircuitFaults`, simnet_repair.go:361-397. -/
def Net.repairAll (st : Net) (n : Node) : Net :=
  match st.state n with
  | .healthy => st
  | .isolated => st
  | .faulty => ((({ st with state := upd st.state n .healthy }).deafToRead n none)).mapConns n (fun _ => true) Conn.repair
  | .faultyIsolated => ((({ st with state := upd st.state n .isolated }).deafToRead n none)).mapConns n (fun _ => true) Conn.repair

/-- `powerOnSimnode`, simnet.go:1490-1507. -/
def Net.powerOn (st : Net) (n : Node) : Net := { st with powerOff := upd st.powerOff n false }

/-- `handleCircuitRepair`, simnet_repair.go:281-345.  Deferred: `equilibrateReads`, then
`deliverDroppedSends`. -/
def Net.repairCkt (st : Net) (o : Node) (target : Option Node) (unIso power justOrigin deliver : Bool) : Net :=
  if !(st.inDns o) then st
  else if !((target.map st.inDns).getD true) then st
  else
    let st := st.repairAll o
    let st := if power then st.powerOn o else st
    let st :=
      if justOrigin then st.equilibrate o none
      else
        let st := ((((st.circ o).getD []).map Prod.fst).filter (sel target)).foldl
          (fun st r => let st := st.repairAll r; if power then st.powerOn r else st) st
        let st := if unIso then st.unIsolate o else st
        st.equilibrate o target
    if deliver then st.deliverDropped o target else st

/-- `locals`, simnet.go:976-984. -/
def Net.locals (st : Net) (n : Node) : List Node :=
  match st.srvOf n with
  | none => [n]
  | some s => st.group s

/-- One node of the loop of `shutdownSimnode`, simnet.go:1437-1483: the five queues are emptied, the
circuits are deleted, a client is forgotten. -/
def Net.wipe (target : Node) (st : Net) (n : Node) : Net :=
  let gone := (st.q (.readQ, n) ++ st.q (.preArrQ, n) ++ st.q (.deafReadQ, n) ++ st.q (.droppedSendQ, n)).filter (·.isSend)
  let st := { st with
    q := fun p => if p.2 = n then [] else st.q p
    wiped := gone ++ st.wiped
    circ := upd st.circ n none }
  if st.isCli n && st.hasConn n then
    { st with
      hasConn := upd st.hasConn n false
      srvOf := upd st.srvOf n none
      inDns := upd st.inDns n false
      group := upd st.group target ((st.group target).filter (fun x => !(x == n))) }
  else { st with group := upd st.group n [n] }

/-- `shutdownSimnode`, simnet.go:1427-1488. -/
def Net.shutdown (st : Net) (n : Node) : Net :=
  if !(st.inDns n) then st
  else if st.powerOff n then st
  else (st.locals n).foldl (Net.wipe n) { st with powerOff := upd st.powerOff n true }

/-- One node of the loop of `handleCloseSimnode`, simnet.go:3624-3675.  The flag
`processCrashNotHostCrash` is never set (simnet_api.go:914-935), so no EOF is sent. -/
def Net.forget (st : Net) (n : Node) : Net :=
  { st with circ := upd st.circ n none, srvOf := upd st.srvOf n none, inDns := upd st.inDns n false }

/-- `handleCloseSimnode`, simnet.go:3603-3682. -/
def Net.close (st : Net) (n : Node) : Net :=
  if !(st.inDns n) then st
  else
    let st := (st.locals n).foldl Net.forget { st with powerOff := upd st.powerOff n true }
    { st with inDns := upd st.inDns n false }

/-! ### Runs -/

/-- The operations: the `switch` of `distributeMEQ`, simnet.go:2937-3010, and `dispatchAll`. -/
inductive Op
  | addServer (n : Node)
  | addClient (c s : Node) (base : Option Node)
  | send (o t : Node) (payload : List UInt8) (eof : Bool) (initTm tie : Nat)
  | read (o t : Node) (initTm tie : Nat)
  | dispatch (now : Nat)
  | faultCkt (now : Nat) (o : Node) (target : Option Node) (dd : Spec) (deliver : Bool)
  | repairCkt (o : Node) (target : Option Node) (unIso power justOrigin deliver : Bool)
  | isolate (n : Node)
  | unIsolate (n : Node)
  | shutdown (n : Node)
  | powerOn (n : Node)
  | close (n : Node)
deriving DecidableEq, Repr

/-- One operation.  After a panic the scheduler is gone and nothing happens any more. -/
def step (sc : Scen) (st : Net) (op : Op) : Net :=
  if st.crashed then st
  else
    match op with
    | .addServer n => st.addServer n
    | .addClient c s b => st.addClient c s b
    | .send o t pl e i tie => st.handleSend sc o t pl e i tie
    | .read o t i tie => st.handleRead o t i tie
    | .dispatch now => st.dispatch sc now
    | .faultCkt now o t dd d => st.faultCkt sc now o t dd d
    | .repairCkt o t u p j d => st.repairCkt o t u p j d
    | .isolate n => st.isolate n
    | .unIsolate n => if st.inDns n then st.unIsolate n else st
    | .shutdown n => st.shutdown n
    | .powerOn n => if st.inDns n then st.powerOn n else st
    | .close n => st.close n

/-- A run of the network. -/
def run (sc : Scen) (st : Net) (ops : List Op) : Net := ops.foldl (step sc) st

end Verif.Simnet

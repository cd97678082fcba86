/-
Model of how two nodes get rid of surplus circuits between them, /repo/tube/tube.go: handleNewCircuit (tables only),
addToCktall, deleteFromCktAll, cleanupGoneCktP, globalPruneCktCheck, pruneDown, handlePruneRedundantCircuit and the
peerLeftCh case of the event loop.

* Two nodes, `false` and `true`, with any number of circuits between them. All tables of the code are keyed by the remote
  peer or by the circuit, so what happens with other peers does not matter here.
* A circuit id is a number; the code compares the strings, only the order matters. Ids do not repeat (they are random).
* Each circuit has two ends. Closing one end is heard at the other some time later (`hear`).
* Prune requests under way may arrive in any order, or never. `got` and `sent` are there for the theorems only.
* Times are whole seconds.
-/
namespace Verif.Prune

abbrev Cid := Nat

/-- A PruneRedundantCircuitReq under way, tube.go:2536-2545: the circuit that carries it, and its three arguments. -/
structure Pkt where
  on : Cid
  victim : Cid
  keeper : Cid
  nonce : Nat
deriving DecidableEq, Repr

/-- The tables of one node about the other one. -/
structure Side where
  /-- keys of cktAuditByCID -/
  audit : List Cid := []
  /-- cktAuditByPeerID -/
  prior : Option Cid := none
  /-- the map `dups`, shared by all duplicates; empty for nil -/
  dups : List Cid := []
  /-- cktall: the circuit messages are sent on -/
  cur : Option Cid := none
  /-- whether the record in cktall shares `dups` -/
  curDups : Bool := false
  /-- cktPlus.dupSeen -/
  seen : Cid → Nat := fun _ => 0
  /-- cktPlus.pruneDownCount -/
  count : Cid → Nat := fun _ => 0
  /-- cktPlus.pruner -/
  nonces : Cid → List Nat := fun _ => []
  /-- circuits handleNewCircuit has seen -/
  came : List Cid := []
  /-- circuits whose reader goroutine has ended -/
  ended : List Cid := []
  /-- notices waiting on peerLeftCh -/
  left : Nat := 0

structure Sys where
  /-- both services are TUBE_REPLICA -/
  replicas : Bool := false
  made : List Cid := []
  side : Bool → Side := fun _ => {}
  open_ : Bool → Cid → Bool := fun _ _ => true
  wire : Bool → List Pkt := fun _ => []
  got : Bool → List Pkt := fun _ => []
  /-- requests sent towards a node -/
  sent : Bool → List Pkt := fun _ => []
  fresh : Nat := 0

def upd {α β : Type} [DecidableEq α] (f : α → β) (a : α) (b : β) : α → β := fun x => if x = a then b else f x

def Sys.setSide (s : Sys) (x : Bool) (n : Side) : Sys := { s with side := upd s.side x n }

/-- Circuit.Close at one end. -/
def Sys.shut (s : Sys) (x : Bool) (c : Cid) : Sys := { s with open_ := upd s.open_ x (upd (s.open_ x) c false) }

/-- tube.go:2205-2243 with addToCktall, 16500-16625: the new circuit replaces the one in cktall, and is entered as a
duplicate when another one is known. Left out: names, watchdogs, cktReplica, reader goroutine (see `gone`). -/
def arrive (n : Side) (c : Cid) (now : Nat) : Side :=
  match n.prior with
  | none => { n with cur := some c, curDups := false, audit := c :: n.audit, prior := some c, came := c :: n.came }
  | some p =>
    let seen := if p ∈ n.dups then n.seen else upd n.seen p now
    let dups := if p ∈ n.dups then n.dups else p :: n.dups
    { n with cur := some c, curDups := true, audit := c :: n.audit, came := c :: n.came,
             dups := c :: dups, seen := upd seen c now }

/-- tube.go:2402-2432: the tables after the circuit is gone, and whether it was the last one. -/
def cleanup (n : Side) (c : Cid) : Side × Bool :=
  let dups := n.dups.filter (· ≠ c)
  let m := { n with audit := n.audit.filter (· ≠ c), dups := dups }
  if dups = [] then ({ m with prior := none }, true) else (m, false)

/-- tube.go:2503-2559. -/
def pruneDown (s : Sys) (x : Bool) (goner keeper : Cid) : Sys :=
  let n := s.side x
  if s.open_ x goner = false then
    if goner ∈ n.ended then s.setSide x { (cleanup n goner).1 with cur := none } else s
  else if s.open_ x keeper = false then s
  else if 2 ≤ n.count goner then (s.shut x goner).setSide x { n with cur := none }
  else
    let a : Pkt := ⟨goner, goner, keeper, s.fresh⟩
    let b : Pkt := ⟨keeper, goner, keeper, s.fresh⟩
    { (s.setSide x { n with count := upd n.count goner (n.count goner + 1) }) with
        wire := upd s.wire (!x) (a :: b :: s.wire (!x)), sent := upd s.sent (!x) (a :: b :: s.sent (!x)), fresh := s.fresh + 1 }

/-- sort.Sort(byCircuitID(all)); all[0], tube.go:2466-2470. -/
def least : List Cid → Option Cid
  | [] => none
  | c :: l => match least l with
    | none => some c
    | some d => some (if c < d then c else d)

/-- tube.go:2469-2478: all but the first, and of these the ones that have been duplicates for ten seconds. -/
def goners (n : Side) (keeper now : Nat) : List Cid :=
  n.dups.filter (fun g => g ≠ keeper ∧ n.seen g + 10 ≤ now)

/-- tube.go:2437-2492, the first loop of globalPruneCktCheck. -/
def check (s : Sys) (x : Bool) (now : Nat) : Sys :=
  let n := s.side x
  if n.cur = none ∨ n.curDups = false ∨ n.dups.length < 2 ∨ s.replicas = true then s
  else match least n.dups with
    | none => s
    | some keeper => (goners n keeper now).foldl (fun s g => pruneDown s x g keeper) s

/-- tube.go:2434-2500, globalPruneCktCheck: then closes every circuit of cktAuditByCID that is not in cktall. The tables are
those from before the first loop. -/
def tick (s : Sys) (x : Bool) (now : Nat) : Sys :=
  (((s.side x).audit.filter (fun c => (s.side x).cur ≠ some c))).foldl (fun s c => s.shut x c) (check s x now)

/-- tube.go:18425-18482, handlePruneRedundantCircuit. None: panic (a request on a third circuit). addToCktall of the keeper
makes a new record, that shares nothing. -/
def handle (s : Sys) (x : Bool) (p : Pkt) : Option Sys :=
  let n := s.side x
  if p.keeper ∉ n.audit ∨ p.victim ∉ n.audit then some s
  else if p.on ≠ p.victim ∧ p.on ≠ p.keeper then none
  else
    let n1 := { n with nonces := upd n.nonces p.on (p.nonce :: n.nonces p.on) }
    let other := if p.on = p.victim then p.keeper else p.victim
    if p.nonce ∈ n1.nonces other then
      some ((s.shut x p.victim).setSide x
        { n1 with prior := some p.keeper, audit := n.audit.filter (· ≠ p.victim), cur := some p.keeper, curDups := false })
    else some (s.setSide x n1)

inductive Action where
  /-- a circuit comes into being -/
  | create (c : Cid)
  /-- newCircuitCh, at one end -/
  | arrive (x : Bool) (c : Cid) (now : Nat)
  /-- the first loop of the periodic check alone -/
  | check (x : Bool) (now : Nat)
  /-- the periodic check -/
  | tick (x : Bool) (now : Nat)
  /-- a prune request arrives -/
  | deliver (x : Bool) (k : Nat)
  /-- the other end was closed -/
  | hear (x : Bool) (c : Cid)
  /-- tube.go:2258-2305: the reader goroutine of a closed circuit ends -/
  | gone (x : Bool) (c : Cid)
  /-- tube.go:1244-1256: peerLeftCh -/
  | peerLeft (x : Bool)
  /-- an end is closed for other reasons: the network, idle for a minute, the user -/
  | lost (x : Bool) (c : Cid)
deriving DecidableEq, Repr

/-- One event at one of the nodes; none when it cannot happen. -/
def step (s : Sys) : Action → Option Sys
  | .create c => if c ∈ s.made then none else some { s with made := c :: s.made }
  | .arrive x c now =>
    if c ∈ s.made ∧ c ∉ (s.side x).came then some (s.setSide x (arrive (s.side x) c now)) else none
  | .check x now => some (check s x now)
  | .tick x now => some (tick s x now)
  | .deliver x k =>
    match (s.wire x)[k]? with
    | none => none
    | some p => handle { s with wire := upd s.wire x ((s.wire x).eraseIdx k), got := upd s.got x (p :: s.got x) } x p
  | .hear x c => if c ∈ s.made ∧ s.open_ (!x) c = false then some (s.shut x c) else none
  | .gone x c =>
    if c ∈ (s.side x).came ∧ c ∉ (s.side x).ended ∧ s.open_ x c = false then
      let r := cleanup (s.side x) c
      some (s.setSide x { r.1 with ended := c :: r.1.ended, left := if r.2 then r.1.left + 1 else r.1.left })
    else none
  | .peerLeft x =>
    if (s.side x).left = 0 then none
    else match (s.side x).cur with
      | none => some (s.setSide x { (s.side x) with left := (s.side x).left - 1 })
      | some c => some ((s.shut x c).setSide x { (s.side x) with left := (s.side x).left - 1, cur := none })
  | .lost x c => if c ∈ s.made then some (s.shut x c) else none

def run (s : Sys) : List Action → Option Sys
  | [] => some s
  | a :: l => (step s a).bind (fun t => run t l)

end Verif.Prune

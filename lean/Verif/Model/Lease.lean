import Verif.Model.Raft
/-
Reads served by the leader alone: the Raft model (Model/Raft.lean) run under clocks.

* Every step happens at a real time; a node only ever reads its own clock, `clk v` of the
  real time. Times and durations are whole numbers.
* One pass of the event loop is one instant. The exception is `send`, whose time stamp may be
  taken later than the message leaves (`lag`), because `bcastAppendEntries` does so; the node
  does nothing else in between.
* A timer may fire at any time from its earliest moment on: the random part of
  `electionTimeoutDur` (tube.go:6611-6637) is never negative.
* The pre-vote exchange is left out: a follower may win its pre-vote at any time. What
  follows then (phase two, tube.go:7022-7050) is modelled.
* The address of the known leader (`leaderID`, `leaderName`, `leaderURL`) is one flag.
* Non-voting (shadow) replicas take part only by acknowledging (`shadow`).
-/
namespace Verif.Lease
open Verif.Raft

/-- The cluster: its voting members, every node's HeartbeatDur, ClockDriftBound and
MinElectionDur (tube.go:6653-6665, 12086-12104), and its clock. -/
structure Cfg where
  mem : List Nat
  hb : Nat → Nat
  drift : Nat → Nat
  minElec : Nat → Nat
  clk : Nat → Nat → Nat

/-- tube.go `UnackedPing`, `LastFullPing`: time stamp, and AEID as the number of the message. -/
structure Ping where
  sent : Nat
  aeid : Nat
deriving DecidableEq, Repr

/-- tube.go `RaftNodeInfo`: the fields the lease depends on. -/
structure Info where
  unacked : Option Ping := none
  lastFull : Option Ping := none
  minElec : Nat := 0
deriving DecidableEq, Repr

/-- tube.go `TubeNode`: lastLegitAppendEntries, whether leaderID is set, the earliest moment
electionTimeoutCh fires, preVoteOkLeaderElecDeadline with preVoteOkLeaderElecTerm, `s.peers`,
the log index of initialNoop0Tkt; and the real time until which the node is busy. -/
structure Local where
  lastLegit : Option Nat := none
  hasLeader : Bool := false
  elec : Nat := 0
  phase2 : Option (Nat × Nat) := none
  info : List (PeerID × Info) := []
  noop0 : Option Nat := none
  free : Nat := 0
deriving DecidableEq, Repr

/-- Node `who` in incarnation `inc` accepted AppendEntries `aeid` of leader term `term`, at
real time `time`. -/
structure Acc where
  who : Nat
  inc : Nat
  aeid : Nat
  term : Nat
  time : Nat
deriving DecidableEq, Repr

/-- The Raft system, the nodes' timers and tables, the real time, and the AEID carried by
every acknowledgement. `accs` and `sentAt` (when message number `k` was sent) record what
happened and are never read by a step. -/
structure TSys where
  sys : Sys := {}
  loc : Nat → Local := fun _ => {}
  now : Nat := 0
  aeOf : Nat → Option Nat := fun _ => none
  accs : List Acc := []
  sentAt : Nat → Nat := fun _ => 0

inductive Act where
  /-- a step of the Raft model other than `send` -/
  | raft (a : Action)
  /-- AppendEntries to the peers `to`, stamped `lag` after it was sent: 0 in `newAEtoPeer`
  (tube.go:8886), however long the sending takes in `bcastAppendEntries` (9046-9060) -/
  | send (v beg cnt : Nat) (to : List PeerID) (lag : Nat)
  /-- `tallyPreVote` sees a quorum, tube.go:7022-7050 -/
  | preVoteWon (v : Nat)
  /-- electionTimeoutCh fires, tube.go:1390-1440 -/
  | elapse (v : Nat)
  /-- a shadow replica acknowledges the last AppendEntries sent to it (9753-9900) -/
  | shadow (v : Nat) (p : PeerID)
deriving DecidableEq, Repr

/-- The node at which an action happens. -/
def actor : Action → Nat
  | .timeout v _ => v
  | .preVote v => v
  | .stepDown v => v
  | .deliver v _ _ _ _ _ => v
  | .client v _ => v
  | .send v _ _ => v
  | .join v _ => v
  | .leave v _ => v
  | .crash v => v

/-- tube.go:12401-12437 `haveStickyLeader` of a node that is not leader; LeadershipTransferFrom
is never set by the code. -/
def sticky (c : Cfg) (v : Nat) (l : Local) (t : Nat) : Bool :=
  l.hasLeader && match l.lastLegit with
    | none => false
    | some x => decide (c.clk v t < x + c.minElec v + c.drift v)

/-- What clocks decide: tube.go:1358-1388 for standing, 11217-11260 for votes. -/
def guard (c : Cfg) (ts : TSys) (t : Nat) : Action → Bool
  | .timeout v _ =>
    match (ts.loc v).phase2 with
    | none => false
    | some (d, T) => decide (d ≤ c.clk v t ∧ T = (ts.sys.nodes v).term + 1)
  | .deliver v _ _ st _ _ => st == sticky c v (ts.loc v) t
  | .send _ _ _ => false
  | _ => true

/-- Change the record of one peer, creating it if missing (tube.go:8881-8885, 9852-9857). -/
def modify (p : PeerID) (f : Info → Info) (l : List (PeerID × Info)) : List (PeerID × Info) :=
  if l.any (fun x => x.1 = p) then l.map fun x => if x.1 = p then (x.1, f x.2) else x
  else l ++ [(p, f {})]

/-- tube.go:8886-8888, 9058-9060. -/
def ping (stamp k : Nat) (i : Info) : Info := { i with unacked := some ⟨stamp, k⟩ }

/-- tube.go:9862-9888: the acknowledgement of AppendEntries `k` from a peer with minimal
election time `me`. -/
def pong (k : Option Nat) (me : Nat) (i : Info) : Info :=
  match i.unacked with
  | none => i
  | some p => if some p.aeid = k then { i with lastFull := some p, minElec := me } else i

/-- Timers and tables of node `v` after a message: tube.go:8087, 8125-8144
(`handleAppendEntries`), 6571-6588 (`becomeFollower` with a later term), 9753-9888
(`handleAppendEntriesAck`). -/
def afterMsg (c : Cfg) (ts : TSys) (v t k : Nat) (n' : Node) (l : Local) : Msg → Local
  | .ae m =>
    if 1 ≤ m.term ∧ (ts.sys.nodes v).term ≤ m.term then
      { l with lastLegit := some (c.clk v t), hasLeader := true, elec := c.clk v t + c.minElec v,
               phase2 := none }
    else l
  | .reqVote _ => if (ts.sys.nodes v).term < n'.term then { l with hasLeader := false } else l
  | .vote m => if (ts.sys.nodes v).term < m.term then { l with hasLeader := false } else l
  | .ack m =>
    if (ts.sys.nodes v).term < m.term then { l with hasLeader := false }
    else if m.term = (ts.sys.nodes v).term ∧ (ts.sys.nodes v).role = .leader ∧
        m.leader = (v, (ts.sys.nodes v).inc) then
      { l with info := modify m.src (pong (ts.aeOf k) (c.minElec m.src.1)) l.info }
    else l

/-- Timers and tables of the node after a Raft step: `candidateReinitFollowerInfo` (9526) and
`resetPreVoteState` (6691) on standing, 1550-1553 on stepping down, 16687-16704 and 2561-2564 on
circuits, nothing kept over a restart. -/
def after (c : Cfg) (ts : TSys) (t : Nat) (n' : Node) (l : Local) : Action → Local
  | .timeout _ _ => { l with phase2 := none, info := [] }
  | .stepDown _ => { l with hasLeader := false }
  | .deliver v k _ _ _ _ =>
    match ts.sys.msgs[k]? with
    | none => l
    | some m => afterMsg c ts v t k n' l m
  | .join _ p => { l with info := (l.info.filter fun x => x.1.1 ≠ p.1) ++ [(p, {})] }
  | .leave _ p => { l with info := l.info.filter fun x => x.1 ≠ p }
  | .crash _ => {}
  | .preVote _ => l
  | .client _ _ => l
  | .send _ _ _ => l

/-- `becomeLeader`, tube.go:7253-7258, 7390-7414: the node knows a leader (itself) and has
appended its first noop. -/
def crown (n n' : Node) (l : Local) : Local :=
  if n'.role = .leader ∧ n.role ≠ .leader then
    { l with noop0 := some n'.log.length, hasLeader := true }
  else l

/-- The acceptance recorded when AppendEntries `m`, number `k`, reaches `v`. -/
def accepted (ts : TSys) (v t k : Nat) : Msg → List Acc
  | .ae m =>
    if 1 ≤ m.term ∧ (ts.sys.nodes v).term ≤ m.term then [⟨v, (ts.sys.nodes v).inc, k, m.term, t⟩] else []
  | _ => []

/-- New acceptances of a step. -/
def newAccs (ts : TSys) (t : Nat) : Action → List Acc
  | .deliver v k _ _ _ _ =>
    match ts.sys.msgs[k]? with
    | none => []
    | some m => accepted ts v t k m
  | _ => []

/-- An answer sent now carries the AEID of the message it answers (tube.go:8012-8055). -/
def newAeOf (ts : TSys) : Action → Nat → Option Nat
  | .deliver _ k _ _ _ _ => upd ts.aeOf ts.sys.msgs.length (some k)
  | _ => ts.aeOf

/-- One step at real time `t`. -/
def tstep (c : Cfg) (ts : TSys) (t : Nat) : Act → Option TSys
  | .raft a =>
    if ts.now ≤ t ∧ (ts.loc (actor a)).free ≤ t ∧ guard c ts t a = true then
      (step c.mem ts.sys a).map fun s' =>
        let v := actor a
        { sys := s'
          loc := upd ts.loc v
            (crown (ts.sys.nodes v) (s'.nodes v) (after c ts t (s'.nodes v) (ts.loc v) a))
          now := t
          aeOf := newAeOf ts a
          accs := ts.accs ++ newAccs ts t a
          sentAt := ts.sentAt }
    else none
  | .send v beg cnt to lag =>
    if ts.now ≤ t ∧ (ts.loc v).free ≤ t then
      (step c.mem ts.sys (.send v beg cnt)).map fun s' =>
        { ts with
          sys := s'
          loc := upd ts.loc v { ts.loc v with
            info := to.foldl (fun l p => modify p (ping (c.clk v (t + lag)) ts.sys.msgs.length) l) (ts.loc v).info
            free := t + lag }
          now := t
          sentAt := upd ts.sentAt ts.sys.msgs.length t }
    else none
  | .preVoteWon v =>
    if ts.now ≤ t ∧ (ts.loc v).free ≤ t ∧ (ts.sys.nodes v).role = .follower then
      some { ts with
        loc := upd ts.loc v { ts.loc v with
          phase2 := some (c.clk v t + c.minElec v, (ts.sys.nodes v).term + 1) }
        now := t }
    else none
  | .elapse v =>
    if ts.now ≤ t ∧ (ts.loc v).free ≤ t ∧ (ts.sys.nodes v).role ≠ .leader ∧
        (ts.loc v).elec ≤ c.clk v t then
      some { ts with loc := upd ts.loc v { ts.loc v with hasLeader := false }, now := t }
    else none
  | .shadow v p =>
    if ts.now ≤ t ∧ (ts.loc v).free ≤ t ∧ (ts.sys.nodes v).role = .leader ∧ p.1 ∉ c.mem then
      some { ts with
        loc := upd ts.loc v { ts.loc v with
          info := (ts.loc v).info.map fun x =>
            if x.1 = p then (x.1, pong (x.2.unacked.map (·.aeid)) (c.minElec p.1) x.2) else x }
        now := t }
    else none

/-- Run a list of timed actions. -/
def trun (c : Cfg) (ts : TSys) : List (Nat × Act) → Option TSys
  | [] => some ts
  | (t, a) :: as => (tstep c ts t a).bind fun ts' => trun c ts' as

/-- tube.go:12226-12262: the loop over the peers, in the order Go's map iteration happens to
take; `none` also for the panic at 12242. -/
def scan (need now hb : Nat) : List (PeerID × Info) → Nat → Nat → Nat → Option Nat
  | [], _, _, _ => none
  | x :: rest, good, oldest, minW =>
    match x.2.lastFull with
    | none => scan need now hb rest good oldest minW
    | some p =>
      if x.2.minElec < 2 * hb then none
      else if now + 2 * hb < p.sent + x.2.minElec then
        let minW := min minW (x.2.minElec - 2 * hb)
        let oldest := min oldest p.sent
        if need ≤ good + 1 then some (oldest + minW)
        else scan need now hb rest (good + 1) oldest minW
      else scan need now hb rest good oldest minW

/-- tube.go:12174-12266 `leaderCanServeReadsLocally` at node `v`, real time `t`: `some u` when
the read may be served, `u` being untilTm; `none` also for the panics at 12180 and 12188 (a
window of at most 5 ms, the 720000th part of an hour). `order` is the table in the order
visited, `hour` the length of an hour. -/
def canServe (c : Cfg) (ts : TSys) (v t hour : Nat) (nofault : Bool) (order : List (PeerID × Info)) :
    Option Nat :=
  if (ts.sys.nodes v).role ≠ .leader then none
  else if c.mem.length ≤ 1 then
    if 720000 * (c.minElec v / 2 - c.drift v) ≤ hour then none
    else some (c.clk v t + (c.minElec v / 2 - c.drift v))
  else
    match (ts.loc v).noop0 with
    | none => none
    | some k =>
      if (ts.sys.nodes v).applied < k then none
      else scan (quorum c.mem nofault - 1) (c.clk v t) (c.hb v) order 0 (c.clk v t) hour

end Verif.Lease

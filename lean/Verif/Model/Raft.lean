/-
Model of the consensus core of /repo/tube/tube.go: elections, log replication,
commitment, crashes and restarts, for a fixed membership and without log compaction
(BaseC = 0 everywhere, no snapshots).

* One pass of the event loop (tube.go:1083-2010) handles one event; it is one step here.
* `save` is `s.saver.save(s.state)`; the write-ahead log is durable when written.
* A panic ends the process, which the `crash` step covers, so the panicking checks of the
  handlers (tube.go:7822-7848, 8369-8401, 8456-8461, 10306, 10339) are left out; only those
  in `becomeLeader` are kept (`none`).
* A node is known by its name; a process (PeerID) by name and incarnation.
* The configuration's members never change; its version is (ConfigVersion, ConfigTerm), of
  which only ConfigTerm moves (`becomeLeader`), so a version is one number here.
* Timers only decide when an action is taken, so every action is allowed at any time.
-/
namespace Verif.Raft

/-- tube.go `RaftLogEntry`: term and ticket; the index is the position in the log. -/
structure Entry where
  term : Nat
  cmd : Nat
deriving DecidableEq, Repr

/-- PeerID: node name and incarnation (a fresh one for every process start). -/
abbrev PeerID := Nat × Nat

inductive Role where
  | follower | candidate | leader
deriving DecidableEq, Repr

/-- The part of `RaftState` written by `saver.save` that matters here. -/
structure Saved where
  term : Nat := 0
  vote : Option PeerID := none
  mcTerm : Nat := 0
  commit : Nat := 0
  applied : Nat := 0
deriving DecidableEq, Repr

/-- tube.go `TubeNode` and `RaftState`: role, CurrentTerm, VotedFor/HaveVoted, MC.ConfigTerm,
CommitIndex, LastApplied, the log, `s.votes` split into yes and no names, and
`s.peers[PeerID].MatchIndex` (a missing record stands for MatchIndex 0). -/
structure Node where
  inc : Nat := 0
  role : Role := .follower
  term : Nat := 0
  vote : Option PeerID := none
  mcTerm : Nat := 0
  commit : Nat := 0
  applied : Nat := 0
  log : List Entry := []
  yes : List Nat := []
  no : List Nat := []
  peers : List (PeerID × Nat) := []
  saved : Saved := {}
deriving DecidableEq, Repr

/-- tube.go `RequestVote`. -/
structure ReqVote where
  src : PeerID
  term : Nat
  lastIdx : Nat
  lastTerm : Nat
  mcTerm : Nat
deriving DecidableEq, Repr

/-- tube.go `Vote`: FromPeerID, FromPeerCurrentTerm, CandidateID, CandidatesTerm, VoteGranted. -/
structure Vote where
  src : PeerID
  srcTerm : Nat
  cand : PeerID
  term : Nat
  granted : Bool
  mcTerm : Nat
deriving DecidableEq, Repr

/-- tube.go `AppendEntries`. `terms` is LogTermsRLE written out (C10); the first entry has
index `prev + 1` (tube.go:6192-6215, 9676-9681 build it so). -/
structure AE where
  src : PeerID
  term : Nat
  prev : Nat
  prevTerm : Nat
  entries : List Entry
  terms : List Nat
  commit : Nat
  mcTerm : Nat
deriving DecidableEq, Repr

/-- tube.go `AppendEntriesAck`: FromPeerID, SuppliedLeader, Term, SuppliedLeaderLastTerm,
Rejected, NeedSnapshotGap, LargestCommonRaftIndex, PeerLogLastIndex. -/
structure Ack where
  src : PeerID
  leader : PeerID
  term : Nat
  aeTerm : Nat
  rejected : Bool
  needSnap : Bool
  lcp : Nat
  lastIdx : Nat
  mcTerm : Nat
deriving DecidableEq, Repr

inductive Msg where
  | reqVote (m : ReqVote)
  | vote (m : Vote)
  | ae (m : AE)
  | ack (m : Ack)
deriving DecidableEq, Repr

def terms (log : List Entry) : List Nat := log.map (·.term)

/-- Term of the entry at 1-based index `i`, 0 if there is none. -/
def termAt (log : List Entry) (i : Nat) : Nat :=
  if i = 0 then 0 else ((terms log)[i - 1]?).getD 0

/-- What `leaderLog.Extends(followerLog)` reports as largestCommonRaftIndex (C11). -/
def commonPrefix : List Nat → List Nat → Nat
  | a :: as, b :: bs => if a = b then commonPrefix as bs + 1 else 0
  | _, _ => 0

/-- wal.go `LastLogIndexAndTerm` (0, 0 for the empty log). -/
def lastTerm (log : List Entry) : Nat := termAt log log.length

/-- persistor.go `save`. -/
def save (n : Node) : Node :=
  { n with saved := ⟨n.term, n.vote, n.mcTerm, n.commit, n.applied⟩ }

/-- tube.go:6864-6872 `quorum`; `nofault` is the start-up period NoFaultTolDur. -/
def quorum (mem : List Nat) (nofault : Bool) : Nat :=
  if nofault then mem.length else mem.length / 2 + 1

/-- tube.go:6516-6608 `becomeFollower` (term not below the current one; `mc` is the
version of the configuration passed, 0 for nil). -/
def becomeFollower (n : Node) (term mc : Nat) (sv : Bool) : Node :=
  let n' :=
    if n.term < term ∨ n.mcTerm < mc then
      { n with role := .follower, term := term, vote := none, mcTerm := max n.mcTerm mc }
    else { n with role := .follower }
  if sv then save n' else n'

/-- tube.go:10249-10577 `commitWhatWeCan`: apply up to CommitIndex, save if any applied. -/
def commitWhatWeCan (n : Node) : Node :=
  if n.applied < n.commit then save { n with applied := n.commit } else n

/-- tube.go:7239-7414 `becomeLeader` with the initial noop of `replicateTicket`
(6192-6300): `none` are the panics at 7272, 7281 and 7318. The broadcast of the noop is a
separate `send` step. -/
def becomeLeader (mem : List Nat) (noop : Nat) (n : Node) : Option Node :=
  if n.role = .leader then none
  else if n.term < n.mcTerm then none
  else if n.mcTerm = n.term ∧ mem.length ≠ 1 then none
  else
    let t := if n.mcTerm = n.term then n.term + 1 else n.term
    let log := n.log ++ [⟨t, noop⟩]
    if mem.length = 1 then
      some (save (commitWhatWeCan
        { n with role := .leader, term := t, mcTerm := t, log := log, commit := log.length }))
    else some (save { n with role := .leader, term := t, mcTerm := t, log := log })

/-- tube.go:6682-6845 `beginElection`. -/
def beginElection (mem : List Nat) (me noop : Nat) (n : Node) : Option (Node × List Msg) :=
  if me ∉ mem then some (n, [])
  else if mem.length = 1 then (becomeLeader mem noop n).map fun n' => (n', [])
  else
    let t := if n.role = .follower then n.term + 1 else n.term
    some ({ n with role := .candidate, term := t, vote := some (me, n.inc), yes := [me], no := [],
                   peers := [] },
      [.reqVote ⟨(me, n.inc), t, n.log.length, lastTerm n.log, n.mcTerm⟩])

/-- tube.go:9193-9251 `logUpToDateAsOurs` (the requester is another node). -/
def logUpToDateAsOurs (n : Node) (m : ReqVote) : Bool :=
  if m.mcTerm < n.mcTerm then false
  else if m.term < n.term then false
  else if n.log.length < 1 then true
  else if lastTerm n.log < m.lastTerm then true
  else if m.lastTerm < lastTerm n.log then false
  else decide (n.log.length ≤ m.lastIdx)

/-- tube.go:11337-11390: the decision, once nothing stands against voting; saves. -/
def decideVote (n : Node) (m : ReqVote) : Node × Bool :=
  if logUpToDateAsOurs n m then (save { n with vote := some m.src }, true) else (save n, false)

/-- tube.go:11217-11409 `handleRequestVote`; `sticky` is the recent-leader test of
`haveStickyLeader` (12401), which depends on the clock. -/
def handleRequestVote (me : Nat) (n : Node) (m : ReqVote) (sticky : Bool) : Node × Vote :=
  let r :=
    if m.term < n.term then (n, false)
    else if n.role = .leader ∨ sticky then (save n, false)
    else if n.term < m.term then decideVote (becomeFollower n m.term m.mcTerm false) m
    else if n.vote ≠ none ∧ n.vote ≠ some m.src then (n, false)
    else decideVote n m
  (r.1, ⟨(me, n.inc), n.term, m.src, r.1.term, r.2, n.mcTerm⟩)

/-- tube.go:11472-11610 `handleRequestPreVote`: the node after it (only the hybrid logical
clock, not part of `Node`, is touched) and the answer, whose CandidatesTerm is the asker's. -/
def handleRequestPreVote (me : Nat) (n : Node) (m : ReqVote) (sticky : Bool) : Node × Vote :=
  let granted :=
    if n.role = .leader ∨ sticky then false
    else if m.term ≤ n.term then false
    else logUpToDateAsOurs n m
  (n, ⟨(me, n.inc), n.term, m.src, m.term, granted, n.mcTerm⟩)

/-- tube.go:7175-7193: record one vote, by name. -/
def countVote (me : Nat) (n : Node) (m : Vote) : Node :=
  if m.cand = (me, n.inc) ∧ m.src.1 ∉ n.yes ∧ m.src.1 ∉ n.no then
    if m.granted then { n with yes := n.yes ++ [m.src.1] } else { n with no := n.no ++ [m.src.1] }
  else n

/-- tube.go:7077-7212 `tallyVote`. -/
def tallyVote (mem : List Nat) (me noop : Nat) (n : Node) (m : Vote) (nofault : Bool) : Option Node :=
  if m.term < n.term then some n
  else if n.term < m.term then some (becomeFollower n m.term m.mcTerm true)
  else if n.role = .leader ∨ n.role = .follower then some n
  else if m.src.1 ∉ mem then some n
  else if n.mcTerm < m.mcTerm ∧ m.granted then some n
  else if n.term ≤ m.srcTerm ∧ m.granted then some n
  else
    let n := countVote me n m
    if quorum mem nofault ≤ n.yes.length then becomeLeader mem noop n
    else if quorum mem nofault ≤ n.no.length then some (becomeFollower n n.term 0 false)
    else some n

/-- tube.go:7495-7703 `logsAreMismatched`, BaseC = 0. -/
def logsAreMismatched (log : List Entry) (m : AE) : Bool :=
  if m.entries = [] then false
  else if m.prev = 0 then false
  else if log.length < m.prev then true
  else if termAt log m.prev ≠ m.prevTerm then true
  else (List.zip (log.drop m.prev) m.entries).any fun p => decide (p.1.term ≠ p.2.term)

/-- The acknowledgement, tube.go:8012-8055. -/
def mkAck (me : Nat) (n : Node) (m : AE) (rejected needSnap : Bool) (lcp : Nat) : Ack :=
  ⟨(me, n.inc), m.src, n.term, m.term, rejected, needSnap, lcp, n.log.length, n.mcTerm⟩

/-- tube.go:8095-8124: adopt a newer configuration (`aeMemberConfigHelper`, 7707-7772, with
`setMC`, 14712-14759, which saves), follow the leader. -/
def follow (n : Node) (m : AE) : Node :=
  let n := if n.mcTerm < m.mcTerm then save { n with mcTerm := m.mcTerm } else n
  if n.term < m.term then becomeFollower n m.term m.mcTerm true else { n with role := .follower }

/-- tube.go:8246-8476: what happens to the log; `none` is an early return with a positive ack. -/
def updateLog (log : List Entry) (m : AE) (ext : Bool) (lcp : Nat) : Option (List Entry) :=
  if ext then
    if log.length < m.prev then none
    else if m.entries.length ≤ log.length - m.prev then some log
    else some (log ++ m.entries.drop (log.length - m.prev))
  else if m.prev + m.entries.length ≤ lcp then none
  else some (log.take lcp ++ m.entries.drop (lcp - m.prev))

/-- tube.go:8585-8595: the common index reported after an update. -/
def lcpAfter (log : List Entry) (m : AE) : Nat :=
  if log.length = m.terms.length ∧ lastTerm log = m.terms.getLast?.getD 0 then log.length
  else commonPrefix m.terms (terms log)

/-- tube.go:7792-8620 `handleAppendEntries`. `leaderLog.Extends(followerLog)` is replaced by
what it computes on uncompacted logs (C11). -/
def handleAppendEntries (me : Nat) (n : Node) (m : AE) : Node × Option Ack :=
  if m.term < 1 then (n, none)
  else
    let ext := (terms n.log).isPrefixOf m.terms
    let lcp := commonPrefix m.terms (terms n.log)
    let n := { n with commit := max n.commit (min m.commit lcp) }
    if m.term < n.term then (commitWhatWeCan n, some (mkAck me n m true false lcp))
    else
      let n := follow n m
      if lcp = m.terms.length then (commitWhatWeCan n, some (mkAck me n m false false lcp))
      else if logsAreMismatched n.log m then
        (commitWhatWeCan n, some (mkAck me n m true (decide (lcp < m.prev)) lcp))
      else if m.entries = [] then (commitWhatWeCan n, some (mkAck me n m true false lcp))
      else if !ext && decide (lcp < m.prev) then
        (commitWhatWeCan n, some (mkAck me n m true false lcp))
      else
        match updateLog n.log m ext lcp with
        | none => (commitWhatWeCan n, some (mkAck me n m false false lcp))
        | some log =>
          let n := { n with log := log, commit := max n.commit (min m.commit log.length) }
          (commitWhatWeCan n, some (mkAck me n m false false (lcpAfter log m)))

def matchOf (peers : List (PeerID × Nat)) (p : PeerID) : Nat :=
  ((peers.find? fun x => x.1 = p).map (·.2)).getD 0

/-- Set the MatchIndex of one peer record, creating it if missing (tube.go:9852-9857). -/
def setMatch (peers : List (PeerID × Nat)) (p : PeerID) (i : Nat) : List (PeerID × Nat) :=
  (peers.filter fun x => x.1 ≠ p) ++ [(p, i)]

/-- tube.go:10144-10166: the positions collected by `leaderAdvanceCommitIndex`. -/
def matchIndexes (mem : List Nat) (n : Node) : List Nat :=
  n.log.length :: ((n.peers.filter fun x => x.1.1 ∈ mem).map (·.2))

/-- Insertion into a descending list. -/
def insertDesc (x : Nat) : List Nat → List Nat
  | [] => [x]
  | y :: ys => if y ≤ x then x :: y :: ys else y :: insertDesc x ys

/-- tube.go:10183 `sort.Slice(matchIndexes, >)`. -/
def sortDesc (l : List Nat) : List Nat := l.foldr insertDesc []

/-- tube.go:10086-10243 `leaderAdvanceCommitIndex`. -/
def leaderAdvanceCommitIndex (mem : List Nat) (n : Node) (nofault : Bool) : Node :=
  match (sortDesc (matchIndexes mem n))[quorum mem nofault - 1]? with
  | none => n
  | some i =>
    if i = 0 ∨ i ≤ n.commit ∨ n.log.length < i ∨ termAt n.log i ≠ n.term then n
    else commitWhatWeCan { n with commit := i }

/-- tube.go:9753-10034 `handleAppendEntriesAck`; what it sends in answer are `send` steps.
A snapshot sent on NeedSnapshotGap is outside this model. `forced` is `advanceCheckForced`. -/
def handleAck (mem : List Nat) (me : Nat) (n : Node) (m : Ack) (nofault forced : Bool) : Node :=
  if n.term < m.term then becomeFollower n m.term m.mcTerm true
  else if m.term < n.term then n
  else if n.role ≠ .leader then n
  else if m.leader ≠ (me, n.inc) then n
  else
    let old := matchOf n.peers m.src
    if m.rejected then
      if m.needSnap then { n with peers := setMatch n.peers m.src old }
      else if old < m.lcp then
        leaderAdvanceCommitIndex mem { n with peers := setMatch n.peers m.src m.lcp } nofault
      else { n with peers := setMatch n.peers m.src old }
    else if old < m.lastIdx then
      leaderAdvanceCommitIndex mem { n with peers := setMatch n.peers m.src m.lastIdx } nofault
    else if forced then
      leaderAdvanceCommitIndex mem { n with peers := setMatch n.peers m.src old } nofault
    else { n with peers := setMatch n.peers m.src old }

/-- tube.go:6407-6505 `replicateBatch`: append entries of the current term; a cluster of one
commits at once. -/
def replicateBatch (mem : List Nat) (n : Node) (cmds : List Nat) : Node :=
  let log := n.log ++ cmds.map fun c => ⟨n.term, c⟩
  if mem.length = 1 then commitWhatWeCan { n with log := log, commit := log.length }
  else { n with log := log }

/-- tube.go:8824-8869 `newAE` with the entries `beg .. beg+cnt-1` as chosen by
`sendAppendEntriesTo` (9605) and `bcastAppendEntries` (8964); `cnt = 0` is
`sendAppendEntriesEmptyHeartbeat` (8895). -/
def mkAE (me : Nat) (n : Node) (beg cnt : Nat) : AE :=
  let prev := if cnt = 0 then 0 else beg - 1
  ⟨(me, n.inc), n.term, prev, termAt n.log prev, (n.log.drop (beg - 1)).take cnt, terms n.log,
    n.commit, n.mcTerm⟩

/-- Process restart: state file and log are read back, the rest is fresh (tube.go:872-912). -/
def restart (n : Node) : Node :=
  { inc := n.inc + 1, role := .follower, term := n.saved.term, vote := n.saved.vote,
    mcTerm := n.saved.mcTerm, commit := n.saved.commit, applied := n.saved.applied,
    log := n.log, saved := n.saved }

/-- History variables: never read by a step, they only record what happened.
`elected`: term, process and voters of every election won. `lead t`: the log of the leader
of term `t`. `applied`: node, index and entry of every application to a state machine. -/
structure Hist where
  elected : List (Nat × PeerID × List Nat) := []
  lead : Nat → List Entry := fun _ => []
  applied : List (Nat × Nat × Entry) := []

/-- All nodes and every message ever sent: a message may be delivered at any time, any
number of times, or never. -/
structure Sys where
  nodes : Nat → Node := fun _ => {}
  msgs : List Msg := []
  hist : Hist := {}

inductive Action where
  /-- preVoteOkLeaderElecTimeoutCh, tube.go:1358-1388 -/
  | timeout (v noop : Nat)
  /-- `beginPreVote` on a candidate, tube.go:11072-11079 -/
  | preVote (v : Nat)
  /-- a leader without recent pongs from a quorum steps down, tube.go:1546 -/
  | stepDown (v : Nat)
  /-- message number `k` arrives at `v`; the flags are what clocks decide -/
  | deliver (v k noop : Nat) (sticky nofault forced : Bool)
  /-- client requests reach the leader -/
  | client (v : Nat) (cmds : List Nat)
  /-- the leader sends `cnt` entries from index `beg` (0: a heartbeat) -/
  | send (v beg cnt : Nat)
  /-- a circuit to a new process, tube.go:16687-16704 `addToCktall` -/
  | join (v : Nat) (p : PeerID)
  /-- a circuit is lost, tube.go:2561-2564 `deleteFromCktAll` -/
  | leave (v : Nat) (p : PeerID)
  /-- process crash and restart -/
  | crash (v : Nat)
deriving DecidableEq, Repr

/-- Index and entry of what `n'` applied beyond `n`. -/
def newlyApplied (n n' : Node) : List (Nat × Entry) :=
  ((n'.log.take n'.applied).zipIdx 1 |>.drop n.applied).map fun p => (p.2, p.1)

def upd {α : Type} (f : Nat → α) (i : Nat) (x : α) : Nat → α := fun j => if j = i then x else f j

/-- Replace the node `v`, add messages, record history. -/
def Sys.put (mem : List Nat) (s : Sys) (v : Nat) (n' : Node) (ms : List Msg) : Sys :=
  let n := s.nodes v
  { nodes := upd s.nodes v n'
    msgs := s.msgs ++ ms
    hist :=
      { elected :=
          if n'.role = .leader ∧ n.role ≠ .leader then
            s.hist.elected ++ [(n'.term, (v, n'.inc), if mem.length = 1 then [v] else n'.yes)]
          else s.hist.elected
        lead := if n'.role = .leader then upd s.hist.lead n'.term n'.log else s.hist.lead
        applied := s.hist.applied ++ (newlyApplied n n').map fun p => (v, p.1, p.2) } }

def Msg.src : Msg → PeerID
  | .reqVote m => m.src
  | .vote m => m.src
  | .ae m => m.src
  | .ack m => m.src

/-- Who may receive a message: requests go to all others, answers to the asker. -/
def Msg.toward (v : Nat) : Msg → Bool
  | .reqVote m => m.src.1 ≠ v
  | .ae m => m.src.1 ≠ v
  | .vote m => m.cand.1 = v
  | .ack m => m.leader.1 = v

/-- Dispatch on the message kind, tube.go:1633-1927. -/
def receive (mem : List Nat) (v noop : Nat) (n : Node) (sticky nofault forced : Bool) :
    Msg → Option (Node × List Msg)
  | .reqVote m => let r := handleRequestVote v n m sticky; some (r.1, [.vote r.2])
  | .vote m => (tallyVote mem v noop n m nofault).map fun n' => (n', [])
  | .ae m => let r := handleAppendEntries v n m; some (r.1, r.2.toList.map .ack)
  | .ack m => some (handleAck mem v n m nofault forced, [])

/-- What can happen to one node, whoever sends it whatever (tube.go:1083-2010). -/
inductive Event where
  | timeout (noop : Nat)
  | preVote
  | stepDown
  | recv (m : Msg) (noop : Nat) (sticky nofault forced : Bool)
  | client (cmds : List Nat)
  | send (beg cnt : Nat)
  | join (p : PeerID)
  | leave (p : PeerID)
  | crash
deriving DecidableEq, Repr

/-- One pass of the event loop of one node: its new state and the messages sent. -/
def nodeStep (mem : List Nat) (me : Nat) (n : Node) : Event → Option (Node × List Msg)
  | .timeout noop => if n.role = .follower then beginElection mem me noop n else none
  | .preVote => if n.role = .candidate then some ({ n with role := .follower }, []) else none
  | .stepDown => if n.role = .leader then some (becomeFollower n n.term 0 true, []) else none
  | .recv m noop sticky nofault forced => receive mem me noop n sticky nofault forced m
  | .client cmds => if n.role = .leader then some (replicateBatch mem n cmds, []) else none
  | .send beg cnt =>
    if n.role = .leader ∧ (cnt = 0 ∨ (1 ≤ beg ∧ beg - 1 + cnt ≤ n.log.length)) then
      some (n, [.ae (mkAE me n beg cnt)])
    else none
  | .join p =>
    if p.1 ≠ me then some ({ n with peers := (n.peers.filter fun x => x.1.1 ≠ p.1) ++ [(p, 0)] }, [])
    else none
  | .leave p => some ({ n with peers := n.peers.filter fun x => x.1 ≠ p }, [])
  | .crash => some (restart n, [])

/-- A history of one node: the final state and everything it ever sent. -/
def nodeRun (mem : List Nat) (me : Nat) (n : Node) (sent : List Msg) : List Event →
    Option (Node × List Msg)
  | [] => some (n, sent)
  | e :: es => (nodeStep mem me n e).bind fun r => nodeRun mem me r.1 (sent ++ r.2) es

/-- The system event belonging to an action. -/
def Action.event (s : Sys) : Action → Option (Nat × Event)
  | .timeout v noop => some (v, .timeout noop)
  | .preVote v => some (v, .preVote)
  | .stepDown v => some (v, .stepDown)
  | .deliver v k noop sticky nofault forced =>
    match s.msgs[k]? with
    | none => none
    | some m => if m.toward v then some (v, .recv m noop sticky nofault forced) else none
  | .client v cmds => some (v, .client cmds)
  | .send v beg cnt => some (v, .send beg cnt)
  | .join v p => some (v, .join p)
  | .leave v p => some (v, .leave p)
  | .crash v => some (v, .crash)

/-- One event at one node; `none` when the event cannot happen (or panics). -/
def step (mem : List Nat) (s : Sys) : Action → Option Sys
  | .timeout v noop =>
    if v ∈ mem ∧ (s.nodes v).role = .follower then
      (beginElection mem v noop (s.nodes v)).map fun r => s.put mem v r.1 r.2
    else none
  | .preVote v =>
    if v ∈ mem ∧ (s.nodes v).role = .candidate then
      some (s.put mem v { s.nodes v with role := .follower } [])
    else none
  | .stepDown v =>
    if v ∈ mem ∧ (s.nodes v).role = .leader then
      some (s.put mem v (becomeFollower (s.nodes v) (s.nodes v).term 0 true) [])
    else none
  | .deliver v k noop sticky nofault forced =>
    match s.msgs[k]? with
    | none => none
    | some m =>
      if v ∈ mem ∧ m.toward v then
        (receive mem v noop (s.nodes v) sticky nofault forced m).map fun r => s.put mem v r.1 r.2
      else none
  | .client v cmds =>
    if v ∈ mem ∧ (s.nodes v).role = .leader then
      some (s.put mem v (replicateBatch mem (s.nodes v) cmds) [])
    else none
  | .send v beg cnt =>
    if v ∈ mem ∧ (s.nodes v).role = .leader ∧
        (cnt = 0 ∨ (1 ≤ beg ∧ beg - 1 + cnt ≤ (s.nodes v).log.length)) then
      some (s.put mem v (s.nodes v) [.ae (mkAE v (s.nodes v) beg cnt)])
    else none
  | .join v p =>
    if v ∈ mem ∧ p.1 ≠ v then
      some (s.put mem v { s.nodes v with
        peers := ((s.nodes v).peers.filter fun x => x.1.1 ≠ p.1) ++ [(p, 0)] } [])
    else none
  | .leave v p =>
    if v ∈ mem then
      some (s.put mem v { s.nodes v with peers := (s.nodes v).peers.filter fun x => x.1 ≠ p } [])
    else none
  | .crash v => if v ∈ mem then some (s.put mem v (restart (s.nodes v)) []) else none

/-- Run a list of actions. -/
def run (mem : List Nat) (s : Sys) : List Action → Option Sys
  | [] => some s
  | a :: as => (step mem s a).bind fun s' => run mem s' as

end Verif.Raft

import Verif.Model.Raft

/-
Model of the consensus core of /repo/tube/tube.go with membership changes: the transition
system of `Verif.Model.Raft` in which the membership is part of each node's state and the
leader adds and removes members (`changeMembership`). Pre-votes are included.

* As in `Verif.Model.Raft`: one event of the event loop is one step, the write-ahead log is
  durable when written, logs are not compacted, panics end the process (`crash`), timers only
  decide when an action is taken.
* Not modelled: state snapshots (which replace the membership blindly, C28), the force flag of
  a membership ticket, shadow replicas and observers, contact details of members.
* Parts of a log step that do not look at the membership are taken from `Verif.Model.Raft`.
-/
namespace Verif.Reconfig
open Verif.Raft (Entry PeerID Role ReqVote Vote AE Ack terms termAt lastTerm commonPrefix
  logsAreMismatched updateLog lcpAfter matchOf setMatch sortDesc upd)

/-- tube.go `MemberConfig`: ConfigTerm, ConfigVersion and the keys of PeerNames. -/
structure Conf where
  term : Nat := 0
  ver : Nat := 0
  names : List Nat := []
deriving DecidableEq, Repr

/-- tube.go:13657-13665 `VersionGT`. -/
def Conf.gt (a b : Conf) : Bool :=
  if b.term < a.term then true else if a.term = b.term then decide (b.ver < a.ver) else false

/-- tube.go:13648-13654 `majority`. -/
def majority (l : List Nat) : Nat := if l.length = 0 then 0 else l.length / 2 + 1

/-- tube.go:17156-17197 `quorumsOverlap` (the walk over the smaller of the two lists is one
over the first: names are distinct). -/
def quorumsOverlap (cur new : List Nat) : Bool :=
  if majority cur = 0 ∨ majority new = 0 then true
  else decide (cur.length + new.length - (cur.filter (· ∈ new)).length < majority cur + majority new)

/-- What a peer last said about itself (cktPlus.MC and cktPlus.CurrentTerm, watchdog.go:21-72). -/
structure Report where
  mcTerm : Nat
  mcVer : Nat
  term : Nat
deriving DecidableEq, Repr

/-- The part of `RaftState` written by `saver.save` that matters here. -/
structure Saved where
  term : Nat := 0
  vote : Option PeerID := none
  mc : Conf := {}
  commit : Nat := 0
  applied : Nat := 0
deriving DecidableEq, Repr

/-- tube.go `TubeNode` and `RaftState`. Beyond `Raft.Node`: the membership `mc`, the pre-vote
state (preVoteTerm, names of yes and no pre-votes, preVoteOkLeaderElecTerm), the last report of
each peer with a circuit, the index of the noop the leader started with and
initialNoop0HasCommitted. -/
structure Node where
  inc : Nat := 0
  role : Role := .follower
  term : Nat := 0
  vote : Option PeerID := none
  mc : Conf := {}
  commit : Nat := 0
  applied : Nat := 0
  log : List Entry := []
  yes : List Nat := []
  no : List Nat := []
  peers : List (PeerID × Nat) := []
  preTerm : Nat := 0
  preYes : List Nat := []
  preNo : List Nat := []
  preOk : Nat := 0
  seen : Nat → Option Report := fun _ => none
  noop0 : Option Nat := none
  noopDone : Bool := false
  saved : Saved := {}

/-- The messages of `Verif.Model.Raft` and those of the pre-vote, each with the sender's
membership. The field `mcTerm` of the inner message repeats its term and is not used. -/
inductive Msg where
  | reqVote (m : ReqVote) (mc : Conf)
  | preReq (m : ReqVote) (mc : Conf)
  | vote (m : Vote) (mc : Conf)
  | preVote (m : Vote) (mc : Conf)
  | ae (m : AE) (mc : Conf)
  | ack (m : Ack) (mc : Conf)
deriving DecidableEq, Repr

/-- persistor.go `save`. -/
def save (n : Node) : Node :=
  { n with saved := ⟨n.term, n.vote, n.mc, n.commit, n.applied⟩ }

/-- tube.go:14713-14759 `setMC`: adopt a newer membership and save. -/
def setMC (n : Node) (mc : Conf) : Node :=
  if mc.gt n.mc then save { n with mc := mc } else n

/-- tube.go:11651-11680 `resetPreVoteState`. -/
def resetPreVoteState (n : Node) : Node :=
  { n with preTerm := 0, preYes := [], preNo := [], preOk := 0 }

/-- tube.go:6864-6872 `quorum`; `nofault` is the start-up period NoFaultTolDur. -/
def quorum (names : List Nat) (nofault : Bool) : Nat :=
  if nofault then names.length else names.length / 2 + 1

/-- tube.go:6516-6608 `becomeFollower` (term not below the current one; `mc` none for nil). -/
def becomeFollower (n : Node) (term : Nat) (mc : Option Conf) (sv : Bool) : Node :=
  let n1 := { n with role := .follower, noop0 := none, noopDone := false }
  let newer := mc.any (·.gt n.mc)
  let n2 := match mc with
    | some c => setMC n1 c
    | none => n1
  let n3 := if n.term < term ∨ newer then { n2 with term := term, vote := none } else n2
  let n4 := resetPreVoteState n3
  if sv then save n4 else n4

/-- tube.go:10249-10577 `commitWhatWeCan`: apply up to CommitIndex, save if any applied; on
the leader, applying the first noop is noted (10395-10405). -/
def commitWhatWeCan (onLeader : Bool) (n : Node) : Node :=
  if n.applied < n.commit then
    save { n with
      applied := n.commit
      noopDone := n.noopDone ||
        (onLeader && n.noop0.any fun i => decide (n.applied < i ∧ i ≤ n.commit)) }
  else n

/-- tube.go:7239-7414 `becomeLeader`: the membership is rewritten with the new term; then the
first noop is appended (`replicateTicket`, 6192-6300). `none` are the panics. -/
def becomeLeader (me noop : Nat) (n : Node) : Option Node :=
  if n.role = .leader then none
  else if n.term < n.mc.term then none
  else if n.mc.term = n.term ∧ ¬ (me ∈ n.mc.names ∧ n.mc.names.length = 1) then none
  else
    let t := if n.mc.term = n.term then n.term + 1 else n.term
    let log := n.log ++ [⟨t, noop⟩]
    let n' := resetPreVoteState { n with
      role := .leader, term := t, mc := { n.mc with term := t }, log := log,
      noop0 := some log.length }
    if n.mc.names.length = 1 then some (save (commitWhatWeCan true { n' with commit := log.length }))
    else some (save n')

/-- tube.go:6682-6842 `beginElection`. -/
def beginElection (me noop : Nat) (n : Node) : Option (Node × List Msg) :=
  if me ∉ n.mc.names then some (n, [])
  else
    let n := resetPreVoteState n
    if n.mc.names.length = 1 then (becomeLeader me noop n).map fun n' => (n', [])
    else
      let t := if n.role = .follower then n.term + 1 else n.term
      some ({ n with role := .candidate, term := t, vote := some (me, n.inc), yes := [me], no := [],
                     peers := [] },
        [.reqVote ⟨(me, n.inc), t, n.log.length, lastTerm n.log, n.mc.term⟩ n.mc])

/-- tube.go:7005-7060: what the tally of pre-votes concludes. -/
def concludePreVote (n : Node) (nofault : Bool) : Node :=
  if quorum n.mc.names nofault ≤ n.preYes.length then { n with preOk := n.preTerm, preTerm := 0 }
  else if quorum n.mc.names nofault ≤ n.preNo.length then resetPreVoteState n
  else if n.mc.names.length ≤ n.preYes.length + n.preNo.length then resetPreVoteState n
  else n

/-- tube.go:11051-11215 `beginPreVote` (after a timeout that ends a pre-vote in progress). -/
def beginPreVote (me : Nat) (n : Node) (nofault : Bool) : Node × List Msg :=
  if me ∉ n.mc.names then (n, [])
  else
    let n := { n with role := .follower, preTerm := n.term + 1, preYes := [me], preNo := [], preOk := 0 }
    if n.mc.names.length = 1 then (concludePreVote n nofault, [])
    else (n, [.preReq ⟨(me, n.inc), n.term + 1, n.log.length, lastTerm n.log, n.mc.term⟩ n.mc])

/-- tube.go:6919-7075 `tallyPreVote`, after `seen`. -/
def tallyPreVote (me : Nat) (n : Node) (m : Vote) (mc : Conf) (nofault : Bool) : Node :=
  if m.term ≠ n.preTerm then n
  else if n.role = .leader ∨ n.role = .candidate then n
  else if n.preTerm ≠ n.term + 1 then resetPreVoteState n
  else if mc.gt n.mc then n
  else if m.src.1 ∉ n.mc.names then n
  else
    let n :=
      if m.cand = (me, n.inc) ∧ m.src.1 ∉ n.preYes ∧ m.src.1 ∉ n.preNo then
        (if m.granted then { n with preYes := n.preYes ++ [m.src.1] }
         else { n with preNo := n.preNo ++ [m.src.1] })
      else n
    concludePreVote n nofault

/-- tube.go:9193-9251 `logUpToDateAsOurs` (the requester is another node). -/
def logUpToDateAsOurs (n : Node) (m : ReqVote) (mc : Conf) : Bool :=
  if n.mc.gt mc then false
  else if m.term < n.term then false
  else if n.log.length < 1 then true
  else if lastTerm n.log < m.lastTerm then true
  else if m.lastTerm < lastTerm n.log then false
  else decide (n.log.length ≤ m.lastIdx)

/-- tube.go:11337-11390: the decision, once nothing stands against voting; saves. -/
def decideVote (n : Node) (m : ReqVote) (mc : Conf) : Node × Bool :=
  if logUpToDateAsOurs n m mc then (save { n with vote := some m.src }, true) else (save n, false)

/-- tube.go:11217-11409 `handleRequestVote`; `sticky` is the recent-leader test of
`haveStickyLeader` (12401), which depends on the clock. The answer carries the term and the
membership from before. -/
def handleRequestVote (me : Nat) (n : Node) (m : ReqVote) (mc : Conf) (sticky : Bool) : Node × Msg :=
  let r :=
    if m.term < n.term then (n, false)
    else if n.role = .leader ∨ sticky then (save n, false)
    else if n.term < m.term then decideVote (becomeFollower n m.term (some mc) false) m mc
    else if n.vote ≠ none ∧ n.vote ≠ some m.src then (n, false)
    else decideVote n m mc
  (r.1, .vote ⟨(me, n.inc), n.term, m.src, r.1.term, r.2, n.mc.term⟩ n.mc)

/-- tube.go:11472-11610 `handleRequestPreVote`: the answer; the node does not change. -/
def handleRequestPreVote (me : Nat) (n : Node) (m : ReqVote) (mc : Conf) (sticky : Bool) : Msg :=
  let granted :=
    if n.role = .leader ∨ sticky then false
    else if m.term ≤ n.term then false
    else logUpToDateAsOurs n m mc
  .preVote ⟨(me, n.inc), n.term, m.src, m.term, granted, n.mc.term⟩ n.mc

/-- tube.go:7175-7193: record one vote, by name. -/
def countVote (me : Nat) (n : Node) (m : Vote) : Node :=
  if m.cand = (me, n.inc) ∧ m.src.1 ∉ n.yes ∧ m.src.1 ∉ n.no then
    if m.granted then { n with yes := n.yes ++ [m.src.1] } else { n with no := n.no ++ [m.src.1] }
  else n

/-- tube.go:7077-7212 `tallyVote`, after `seen`. -/
def tallyVote (me noop : Nat) (n : Node) (m : Vote) (mc : Conf) (nofault : Bool) : Option Node :=
  if m.term < n.term then some n
  else if n.term < m.term then some (becomeFollower n m.term (some mc) true)
  else if n.role = .leader ∨ n.role = .follower then some n
  else if m.src.1 ∉ n.mc.names then some n
  else if mc.gt n.mc ∧ m.granted then some n
  else if n.term ≤ m.srcTerm ∧ m.granted then some n
  else
    let n := countVote me n m
    if quorum n.mc.names nofault ≤ n.yes.length then becomeLeader me noop n
    else if quorum n.mc.names nofault ≤ n.no.length then some (becomeFollower n n.term none false)
    else some n

/-- The acknowledgement, tube.go:8012-8055; its membership is the one adopted (7756). -/
def mkAck (me : Nat) (n : Node) (m : AE) (rejected needSnap : Bool) (lcp : Nat) : Msg :=
  .ack ⟨(me, n.inc), m.src, n.term, m.term, rejected, needSnap, lcp, n.log.length, n.mc.term⟩ n.mc

/-- tube.go:8095-8125: adopt a newer membership (`aeMemberConfigHelper`, 7707-7772), follow
the leader. -/
def follow (n : Node) (m : AE) (mc : Conf) : Node :=
  let n := setMC n mc
  let n := if n.term < m.term then becomeFollower n m.term (some mc) true else { n with role := .follower }
  resetPreVoteState n

/-- tube.go:7792-8620 `handleAppendEntries`, after `seen`; see `Raft.handleAppendEntries`. -/
def handleAppendEntries (me : Nat) (n : Node) (m : AE) (mc : Conf) : Node × List Msg :=
  if m.term < 1 then (n, [])
  else
    let ext := (terms n.log).isPrefixOf m.terms
    let lcp := commonPrefix m.terms (terms n.log)
    let n := { n with commit := max n.commit (min m.commit lcp) }
    if m.term < n.term then (commitWhatWeCan false n, [mkAck me n m true false lcp])
    else
      let n := follow n m mc
      if lcp = m.terms.length then (commitWhatWeCan false n, [mkAck me n m false false lcp])
      else if logsAreMismatched n.log m then
        (commitWhatWeCan false n, [mkAck me n m true (decide (lcp < m.prev)) lcp])
      else if m.entries = [] then (commitWhatWeCan false n, [mkAck me n m true false lcp])
      else if !ext && decide (lcp < m.prev) then
        (commitWhatWeCan false n, [mkAck me n m true false lcp])
      else
        match updateLog n.log m ext lcp with
        | none => (commitWhatWeCan false n, [mkAck me n m false false lcp])
        | some log =>
          let n := { n with log := log, commit := max n.commit (min m.commit log.length) }
          (commitWhatWeCan false n, [mkAck me n m false false (lcpAfter log m)])

/-- tube.go:10144-10166: the positions collected by `leaderAdvanceCommitIndex`; the leader's
own is always among them. -/
def matchIndexes (n : Node) : List Nat :=
  n.log.length :: ((n.peers.filter fun x => x.1.1 ∈ n.mc.names).map (·.2))

/-- tube.go:10086-10243 `leaderAdvanceCommitIndex`. -/
def leaderAdvanceCommitIndex (n : Node) (nofault : Bool) : Node :=
  match (sortDesc (matchIndexes n))[quorum n.mc.names nofault - 1]? with
  | none => n
  | some i =>
    if i = 0 ∨ i ≤ n.commit ∨ n.log.length < i ∨ termAt n.log i ≠ n.term then n
    else commitWhatWeCan true { n with commit := i }

/-- tube.go:9789-10034, `handleAppendEntriesAck` after `seen` and `unstallChangeMC`; what it
sends in answer are `send` steps. A leader outside its committed membership steps down here
(9812-9830); that is the step `stepDown`, which may come at any time. -/
def handleAck (me : Nat) (n : Node) (m : Ack) (mc : Conf) (nofault forced : Bool) : Node :=
  if n.term < m.term then becomeFollower n m.term (some mc) true
  else if m.term < n.term then n
  else if n.role ≠ .leader then n
  else if m.leader ≠ (me, n.inc) then n
  else
    let old := matchOf n.peers m.src
    if m.rejected then
      if m.needSnap then { n with peers := setMatch n.peers m.src old }
      else if old < m.lcp then
        leaderAdvanceCommitIndex { n with peers := setMatch n.peers m.src m.lcp } nofault
      else { n with peers := setMatch n.peers m.src old }
    else if old < m.lastIdx then
      leaderAdvanceCommitIndex { n with peers := setMatch n.peers m.src m.lastIdx } nofault
    else if forced then
      leaderAdvanceCommitIndex { n with peers := setMatch n.peers m.src old } nofault
    else { n with peers := setMatch n.peers m.src old }

/-- tube.go:6407-6505 `replicateBatch`: append entries of the current term; with a membership
of one it commits at once (6483-6497). -/
def replicateBatch (n : Node) (cmds : List Nat) : Node :=
  let log := n.log ++ cmds.map fun c => ⟨n.term, c⟩
  if n.mc.names.length ≤ 1 then commitWhatWeCan true { n with log := log, commit := log.length }
  else { n with log := log }

/-- tube.go:8824-8869 `newAE`, see `Raft.mkAE`. -/
def mkAE (me : Nat) (n : Node) (beg cnt : Nat) : Msg :=
  let prev := if cnt = 0 then 0 else beg - 1
  .ae ⟨(me, n.inc), n.term, prev, termAt n.log prev, (n.log.drop (beg - 1)).take cnt, terms n.log,
    n.commit, n.mc.term⟩ n.mc

/-- A membership ticket: AddPeerName or RemovePeerName. -/
inductive Change where
  | add (x : Nat)
  | remove (x : Nat)
deriving DecidableEq, Repr

/-- tube.go:14437-14553: the member list asked for; `none`: the name to remove is not there. -/
def Change.apply (names : List Nat) : Change → Option (List Nat)
  | .add x => some (if x ∈ names then names else names ++ [x])
  | .remove x => if x ∈ names then some (names.erase x) else none

/-- tube.go:14366-14418: how many members (the leader itself if it is one) pass a test of
their last report. -/
def countMembers (me : Nat) (n : Node) (p : Report → Bool) : Nat :=
  (if me ∈ n.mc.names then 1 else 0) +
    (n.mc.names.filter fun x => x ≠ me ∧ (n.seen x).any p).length

/-- tube.go:14384, 14401: the reported membership has the version of the leader's. -/
def sameConf (n : Node) (r : Report) : Bool := decide (r.mcTerm = n.mc.term ∧ r.mcVer = n.mc.ver)

/-- tube.go:14409: the reported term is the leader's. -/
def sameTerm (n : Node) (r : Report) : Bool := decide (r.term = n.term)

/-- tube.go:17084-17135 `mongoLeaderCanReconfig`: Q1, Q2, P1 and the overlap of quorums. -/
def canReconfig (me : Nat) (n : Node) (names : List Nat) : Bool :=
  decide (majority n.mc.names ≤ countMembers me n (sameConf n)) &&
  decide (majority n.mc.names ≤ countMembers me n (sameTerm n)) &&
  n.noopDone && quorumsOverlap n.mc.names names

/-- tube.go:14195-14650 `changeMembership` on the leader: the new membership has the next
version number and takes effect at once, without a log entry. `none`: nothing happens now (the
ticket is stalled, or there is nothing to do). A peer whose circuit is new stalls the ticket
until it has been heard (14371-14408); here it is merely not counted. -/
def changeMembership (me : Nat) (n : Node) (c : Change) : Option Node :=
  if n.role ≠ .leader then none
  else
    match c.apply n.mc.names with
    | none => none
    | some names =>
      if canReconfig me n names then
        some (save { n with mc := ⟨n.mc.term, n.mc.ver + 1, names⟩ })
      else none

/-- Process restart: state file and log are read back, the rest is fresh (tube.go:872-912). -/
def restart (n : Node) : Node :=
  { inc := n.inc + 1, term := n.saved.term, vote := n.saved.vote, mc := n.saved.mc,
    commit := n.saved.commit, applied := n.saved.applied, log := n.log, saved := n.saved }

/-- watchdog.go:21-72 `seen`, the recording part, for messages that carry a report: votes and
pre-votes (tube.go:6928, 7092), append-entries (watchdog.go:119) and their acknowledgements
(9780). A term of 0 is not recorded. -/
def Msg.report : Msg → Option (Nat × Report)
  | .reqVote _ _ => none
  | .preReq _ _ => none
  | .vote m mc => some (m.src.1, ⟨mc.term, mc.ver, m.srcTerm⟩)
  | .preVote m mc => some (m.src.1, ⟨mc.term, mc.ver, m.srcTerm⟩)
  | .ae m mc => some (m.src.1, ⟨mc.term, mc.ver, m.term⟩)
  | .ack m mc => some (m.src.1, ⟨mc.term, mc.ver, m.term⟩)

def see (n : Node) (m : Msg) : Node :=
  match m.report with
  | none => n
  | some (x, r) =>
    let r := if r.term = 0 then { r with term := ((n.seen x).map (·.term)).getD 0 } else r
    { n with seen := upd n.seen x (some r) }

/-- An election won: term, process, membership it was held under, names of the voters. -/
structure Election where
  term : Nat
  who : PeerID
  base : Conf
  voters : List Nat
deriving DecidableEq, Repr

/-- A membership change made: by whom, old and new membership, and the members whose last
report showed both the old membership and the leader's term (the leader itself if a member). -/
structure Made where
  who : PeerID
  term : Nat
  old : Conf
  new : Conf
  confirmed : List Nat
deriving DecidableEq, Repr

/-- History variables, never read by a step. `told`: name, term and membership version of a
node at each of its steps. `applied`: node, index and entry of every application to a state
machine. `lead`: the latest log of a leader of each term. -/
structure Hist where
  elected : List Election := []
  changes : List Made := []
  told : List (Nat × Report) := []
  applied : List (Nat × Nat × Entry) := []
  lead : Nat → List Entry := fun _ => []

/-- All nodes and every message ever sent: a message may be delivered at any time, any
number of times, or never. -/
structure Sys where
  nodes : Nat → Node := fun _ => {}
  msgs : List Msg := []
  hist : Hist := {}

/-- The members whose last report shows the leader's membership and its term. -/
def confirmed (me : Nat) (n : Node) : List Nat :=
  n.mc.names.filter fun x => x = me ∨ (n.seen x).any fun r => sameConf n r && sameTerm n r

def Node.tell (n : Node) : Report := ⟨n.mc.term, n.mc.ver, n.term⟩

/-- Index and entry of what `n'` applied beyond `n`. -/
def newlyApplied (n n' : Node) : List (Nat × Entry) :=
  ((n'.log.take n'.applied).zipIdx 1 |>.drop n.applied).map fun p => (p.2, p.1)

/-- Replace the node `v`, add messages, record history. -/
def Sys.put (s : Sys) (v : Nat) (n' : Node) (ms : List Msg) : Sys :=
  let n := s.nodes v
  { nodes := upd s.nodes v n'
    msgs := s.msgs ++ ms
    hist :=
      { elected :=
          if n'.role = .leader ∧ n.role ≠ .leader then
            s.hist.elected ++ [⟨n'.term, (v, n'.inc), n.mc, if n.mc.names.length = 1 then [v] else n'.yes⟩]
          else s.hist.elected
        changes :=
          if n'.role = .leader ∧ n.role = .leader ∧ n'.mc ≠ n.mc then
            s.hist.changes ++ [⟨(v, n.inc), n.term, n.mc, n'.mc, confirmed v n⟩]
          else s.hist.changes
        told := s.hist.told ++ [(v, n.tell), (v, n'.tell)]
        applied := s.hist.applied ++ (newlyApplied n n').map fun p => (v, p.1, p.2)
        lead := if n'.role = .leader then upd s.hist.lead n'.term n'.log else s.hist.lead } }

/-- Who may receive a message: requests go to all others, answers to the asker. -/
def Msg.toward (v : Nat) : Msg → Bool
  | .reqVote m _ => m.src.1 ≠ v
  | .preReq m _ => m.src.1 ≠ v
  | .ae m _ => m.src.1 ≠ v
  | .vote m _ => m.cand.1 = v
  | .preVote m _ => m.cand.1 = v
  | .ack m _ => m.leader.1 = v

/-- What clocks and connections decide. -/
structure Env where
  sticky : Bool := false
  nofault : Bool := false
  forced : Bool := false
deriving DecidableEq, Repr

/-- Dispatch on the message kind, tube.go:1633-1927 (the handlers after `seen`). -/
def receive (v noop : Nat) (n : Node) (e : Env) : Msg → Option (Node × List Msg)
  | .reqVote m mc => let r := handleRequestVote v n m mc e.sticky; some (r.1, [r.2])
  | .preReq m mc => some (n, [handleRequestPreVote v n m mc e.sticky])
  | .vote m mc => (tallyVote v noop n m mc e.nofault).map fun n' => (n', [])
  | .preVote m mc => some (tallyPreVote v n m mc e.nofault, [])
  | .ae m mc => some (handleAppendEntries v n m mc)
  | .ack m mc => some (handleAck v n m mc e.nofault e.forced, [])

inductive Action where
  /-- electionTimeoutCh: `beginPreVote`, tube.go:1396-1560 -/
  | preVote (v : Nat) (nofault : Bool)
  /-- preVoteOkLeaderElecTimeoutCh, tube.go:1358-1388 -/
  | timeout (v noop : Nat)
  /-- a leader without recent pongs from a quorum, or outside its membership, steps down,
  tube.go:1546, 9825 -/
  | stepDown (v : Nat)
  /-- message number `k` arrives at `v`; `chs` are the stalled membership tickets tried again
  by `seen` and `unstallChangeMC` before the handler looks at the message -/
  | deliver (v k noop : Nat) (e : Env) (chs : List Change)
  /-- a membership ticket reaches the leader, or a stalled one is tried again -/
  | change (v : Nat) (c : Change)
  /-- client requests reach the leader -/
  | client (v : Nat) (cmds : List Nat)
  /-- the leader sends `cnt` entries from index `beg` (0: a heartbeat) -/
  | send (v beg cnt : Nat)
  /-- a circuit to a new process, tube.go:16687-16704 `addToCktall` -/
  | join (v : Nat) (p : PeerID)
  /-- a circuit is lost, tube.go:2561-2564 `deleteFromCktAll` -/
  | leave (v : Nat) (p : PeerID)
  /-- process crash and restart -/
  | crash (v : Nat)
deriving DecidableEq, Repr

/-- Try membership tickets one after the other. -/
def Sys.tryChanges (s : Sys) (v : Nat) : List Change → Sys
  | [] => s
  | c :: cs =>
    match changeMembership v (s.nodes v) c with
    | none => s.tryChanges v cs
    | some n' => (s.put v n' []).tryChanges v cs

/-- One event at one node; `none` when the event cannot happen (or panics). -/
def step (s : Sys) : Action → Option Sys
  | .preVote v nofault =>
    if (s.nodes v).role ≠ .leader then
      let r := beginPreVote v (s.nodes v) nofault
      some (s.put v r.1 r.2)
    else none
  | .timeout v noop =>
    let n := s.nodes v
    if n.role = .follower ∧ n.preTerm = 0 ∧ n.preOk = n.term + 1 then
      (beginElection v noop n).map fun r => s.put v r.1 r.2
    else none
  | .stepDown v =>
    if (s.nodes v).role = .leader then
      some (s.put v (becomeFollower (s.nodes v) (s.nodes v).term none true) [])
    else none
  | .deliver v k noop e chs =>
    match s.msgs[k]? with
    | none => none
    | some m =>
      if m.toward v then
        let s' := (s.put v (see (s.nodes v) m) []).tryChanges v chs
        (receive v noop (s'.nodes v) e m).map fun r => s'.put v r.1 r.2
      else none
  | .change v c => (changeMembership v (s.nodes v) c).map fun n' => s.put v n' []
  | .client v cmds =>
    if (s.nodes v).role = .leader ∧ (s.nodes v).noopDone then
      some (s.put v (replicateBatch (s.nodes v) cmds) [])
    else none
  | .send v beg cnt =>
    if (s.nodes v).role = .leader ∧ (cnt = 0 ∨ (1 ≤ beg ∧ beg - 1 + cnt ≤ (s.nodes v).log.length)) then
      some (s.put v (s.nodes v) [mkAE v (s.nodes v) beg cnt])
    else none
  | .join v p =>
    if p.1 ≠ v then
      some (s.put v { s.nodes v with
        peers := ((s.nodes v).peers.filter fun x => x.1.1 ≠ p.1) ++ [(p, 0)]
        seen := upd (s.nodes v).seen p.1 none } [])
    else none
  | .leave v p =>
    some (s.put v { s.nodes v with
      peers := (s.nodes v).peers.filter fun x => x.1 ≠ p
      seen := upd (s.nodes v).seen p.1 none } [])
  | .crash v => some (s.put v (restart (s.nodes v)) [])

/-- Run a list of actions. -/
def run (s : Sys) : List Action → Option Sys
  | [] => some s
  | a :: as => (step s a).bind fun s' => run s' as

/-- A new cluster: the bootstrap members hold the bootstrap membership of version (0, 0)
(tube.go:13703 `NewMemberConfig`), any other node an empty one. -/
def init (boot : List Nat) : Sys :=
  { nodes := fun v =>
      if v ∈ boot then { mc := ⟨0, 0, boot⟩, saved := { mc := ⟨0, 0, boot⟩ } } else {} }

end Verif.Reconfig

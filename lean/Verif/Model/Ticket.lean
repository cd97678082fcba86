/-
Model of the life of a client request ("ticket") in a tube cluster: /repo/tube/tube.go and imap.go.

Modelled: requests that go through the log and use no session (Write, CAS, DeleteKey, table operations;
actions.go `Write` 55-122 is typical). The call hands a ticket to the node it is made on and waits until the
ticket's Done channel is closed; the answer is what the ticket's Err then says.

Nodes are numbered. Tickets are numbered in the order in which the calls are made; the number stands for the
TicketID. A ticket object is the caller's own (a pointer shared by the maps and the log of the node the call
was made on) or a copy decoded from a message; a log entry says which one it holds (`own`).

The network loses and reorders messages but does not duplicate them. What Raft does below is left to the
environment: who is elected and when, which entries a follower's log takes over (any entries that leaders have
logged at those positions, never cutting into what the node has applied), how far a node commits.

Left out: sessions, reads served from the leader's memory, membership changes and their waiting for a leader
(WaitLeaderDeadline is set only there, tube.go:13148-13156), the values operations return, timing. The
decision to submit a batch (size, count or time, tube.go:6159-6190) is left to the environment.
-/
namespace Verif.Ticket

abbrev Nid := Nat
abbrev Req := Nat

/-- What a log entry asks for: the first entry of a leadership (tube.go:7391 "noop0 first commit") or a request. -/
inductive What where
  | noop (node term : Nat)
  | req (t : Req)
deriving DecidableEq, Repr

/-- tube.go RaftLogEntry: Term, Ticket; `own` when Ticket is the caller's object. The index is the position. -/
structure Entry where
  term : Nat
  what : What
  own : Bool
deriving DecidableEq, Repr

/-- The errors the machinery itself answers with. -/
inductive Why where
  /-- tube.go:5006, 5050 Err_ahem_no_leader_prefix -/
  | noLeader
  /-- tube.go:1826 "I am not leader" -/
  | notLeader
  /-- tube.go:18131 "log truncation caused this ticket outcome to be lost" -/
  | truncated
  /-- tube.go:18145 "... caused this ticket to be lost. Client must resubmit request." -/
  | lost
deriving DecidableEq, Repr

/-- What the waiting call learns: applied, with the log index, or an error. -/
inductive Ans where
  | ok (i : Nat)
  | err (w : Why)
deriving DecidableEq, Repr

/-- tube.go TubeNode, the fields concerned: role == LEADER, CurrentTerm, leaderID, initialNoop0HasCommitted,
WaitingAtFollow, WaitingAtLeader, batchToSubmit, LogIndex and LeaderStampSN of the ticket objects in these,
prevTicketStampSN, the log, LastApplied, the compaction base. Entries at or below `base` are kept here though
the code has dropped them; `getEntry` does not return them. The maps are sets of TicketIDs kept as lists. -/
structure Node where
  leading : Bool := false
  term : Nat := 0
  leader : Option Nid := none
  noop0 : Bool := false
  waf : List Req := []
  wal : List Req := []
  batch : List Req := []
  idx : Req → Nat := fun _ => 0
  stamp : Req → Nat := fun _ => 0
  nstamp : Nat := 0
  log : List Entry := []
  applied : Nat := 0
  base : Nat := 0

/-- The call waiting for a ticket: the node it was made on (FromID), whether that node sent the ticket on to a
leader, whether that process still runs, finishTicketCalled and Done of the caller's ticket object. -/
structure Caller where
  home : Nid := 0
  fwd : Bool := false
  alive : Bool := false
  finished : Bool := false
  ans : Option Ans := none
deriving Repr

/-- RedirectTicketToLeaderMsg to a node; LeaderToClientTicketAppliedMsg and TellClientSteppedDown to the node
the call was made on. -/
inductive Msg where
  | redirect (to : Nid) (t : Req)
  | answer (t : Req) (a : Ans)
  | stepped (t : Req) (leader : Option Nid)
deriving DecidableEq, Repr

/-- An entry put into its log by a leader: bookkeeping, not in the code. -/
structure Logged where
  idx : Nat
  term : Nat
  what : What
  node : Nid
deriving DecidableEq, Repr

/-- The cluster. `logged`, `accepted` (requests put into a leader's batch) and `did` (requests applied by a
node, with the index) only record what happened. -/
structure S where
  nodes : Nid → Node := fun _ => {}
  callers : Req → Caller := fun _ => {}
  next : Nat := 0
  net : List Msg := []
  logged : List Logged := []
  accepted : List (Nid × Nat × Req) := []
  did : List (Nid × Nat × Req) := []

def init : S := {}

def S.setNode (s : S) (n : Nid) (f : Node → Node) : S :=
  { s with nodes := fun m => if m = n then f (s.nodes n) else s.nodes m }

def S.setCaller (s : S) (t : Req) (f : Caller → Caller) : S :=
  { s with callers := fun u => if u = t then f (s.callers t) else s.callers u }

def S.send (s : S) (m : Msg) : S := { s with net := s.net ++ [m] }

/-- tkt.FromID == s.PeerID. A restarted process has a new PeerID. -/
def self (s : S) (n : Nid) (t : Req) : Bool := (s.callers t).home == n && (s.callers t).alive

/-- imap.go:64-86 `set`, as a set of TicketIDs. -/
def mset (t : Req) (w : List Req) : List Req := if t ∈ w then w else w ++ [t]

/-- imap.go:45-54 `del`. -/
def mdel (t : Req) (w : List Req) : List Req := w.filter fun u => u != t

/-- imap.go:117-125 `all`: the tickets that have a LogIndex, in its order; those with LogIndex 0 wait in
awaitIndex and are not visited (imap.go:76-80, 99-115; property C39 is about this map). -/
def all (nd : Node) (w : List Req) : List Req :=
  (w.filter fun t => decide (0 < nd.idx t)).mergeSort fun a b => decide (nd.idx a ≤ nd.idx b)

/-- Closing of tkt.Done: the first closing counts. -/
def close (s : S) (t : Req) (a : Ans) : S :=
  s.setCaller t fun c => { c with ans := c.ans.or (some a) }

def delWaiting (s : S) (n : Nid) (onLeader : Bool) (t : Req) : S :=
  s.setNode n fun nd => if onLeader then { nd with wal := mdel t nd.wal } else { nd with waf := mdel t nd.waf }

/-- tube.go:5529-5667 `FinishTicket` of the caller's own object. -/
def finishOwn (s : S) (n : Nid) (onLeader : Bool) (t : Req) (a : Ans) : S :=
  if (s.callers t).finished then s
  else close (delWaiting (s.setCaller t fun c => { c with finished := true }) n onLeader t) t a

/-- The map FinishTicket looks into (tube.go:5556-5570). -/
def waiting (nd : Node) (onLeader : Bool) : List Req := if onLeader then nd.wal else nd.waf

/-- tube.go:5529-5667 `FinishTicket` of a decoded copy. If the map holds the caller's object (`prior`,
5572-5625) it gets the outcome and its Done is closed. Copies have no Done (5659). -/
def finishCopy (s : S) (n : Nid) (onLeader : Bool) (t : Req) (a : Ans) : S :=
  if t ∈ waiting (s.nodes n) onLeader ∧ self s n t = true then close (delWaiting s n onLeader t) t a
  else delWaiting s n onLeader t

/-- tube.go:10747-10840 `respondToClientTicketApplied`; the message may be lost on the way, which covers the
cases of an unknown circuit. -/
def respond (s : S) (n : Nid) (own : Bool) (t : Req) (a : Ans) : S :=
  let s1 := if own then finishOwn s n (s.nodes n).leading t a else finishCopy s n (s.nodes n).leading t a
  if self s n t then s1 else s1.send (.answer t a)

/-- tube.go:6105-6195 `replicateTicket` of a request: stamped, then held back until the first entry of the
leadership has committed, else added to the batch. -/
def replicate (s : S) (n : Nid) (t : Req) : S :=
  let s := s.setNode n fun nd =>
    if nd.stamp t = 0 then
      { nd with
        stamp := fun u => if u = t then nd.nstamp + 1 else nd.stamp u
        nstamp := nd.nstamp + 1 }
    else nd
  if (s.nodes n).noop0 then
    { s.setNode n (fun nd => { nd with batch := nd.batch ++ [t] }) with
      accepted := s.accepted ++ [(n, (s.nodes n).term, t)] }
  else s.setNode n fun nd => { nd with wal := mset t nd.wal }

/-- tube.go:5989-6031 `resubmitStalledTickets(false)`, without the membership changes: of the tickets visited
in WaitingAtLeader those without a LogIndex, in stamp order. -/
def resubmit (s : S) (n : Nid) : S :=
  let nd := s.nodes n
  (((all nd nd.wal).filter fun t => decide (nd.idx t = 0)).mergeSort
    fun a b => decide (nd.stamp a ≤ nd.stamp b)).foldl (fun s t => replicate s n t) s

/-- wal.go GetEntry: an error at or below the compaction base and beyond the end. -/
def getEntry (nd : Node) (i : Nat) : Option Entry :=
  if i ≤ nd.base then none else nd.log[i - 1]?

/-- tube.go:18105-18152, body of the loop of `ifLostTicketTellClient`. The early return at a LogIndex above
LastApplied skips only tickets for which the body would do nothing. -/
def lostOne (n : Nid) (s : S) (t : Req) : S :=
  let nd := s.nodes n
  if nd.applied < nd.idx t then s
  else
    let s := if nd.idx t ≤ nd.base then respond s n (self s n t) t (.err .truncated) else s
    match getEntry nd (nd.idx t) with
    | none => s
    | some e => if e.what = .req t then s else respond s n (self s n t) t (.err .lost)

/-- tube.go:18105-18152 `ifLostTicketTellClient`. -/
def ifLost (s : S) (n : Nid) : S :=
  let nd := s.nodes n
  (all nd (waiting nd nd.leading)).foldl (lostOne n) s

/-- tube.go:10310 LastApplied moves on by one; `d` is what gets recorded. -/
def advance (s : S) (n : Nid) (d : List (Nid × Nat × Req)) : S :=
  { s.setNode n (fun nd => { nd with applied := nd.applied + 1 }) with did := s.did ++ d }

/-- tube.go:10345-10612, the entry is applied. A no-op matters if it is the first of this node's present
leadership (10395-10430). A request made on this node is finished (10593), for others the leader answers
(10600). -/
def applyEntry (s : S) (n : Nid) (e : Entry) : S :=
  let nd := s.nodes n
  match e.what with
  | .noop m T =>
    if nd.leading && m == n && T == nd.term then (advance s n []).setNode n fun nd => { nd with noop0 := true }
    else advance s n []
  | .req t =>
    let i := nd.applied + 1
    let s1 := advance s n [(n, i, t)]
    if self s n t then
      if e.own then finishOwn s1 n nd.leading t (.ok i) else finishCopy s1 n nd.leading t (.ok i)
    else if nd.leading then respond s1 n false t (.ok i)
    else s1

/-- tube.go:10289-10612, one round of the loop of `commitWhatWeCan`: the next entry is applied. -/
def applyOne (s : S) (n : Nid) : S :=
  match (s.nodes n).log[(s.nodes n).applied]? with
  | none => s
  | some e => applyEntry s n e

def applyN (s : S) (n : Nid) : Nat → S
  | 0 => s
  | c + 1 => applyN (applyOne s n) n c

/-- tube.go:10249-10630 `commitWhatWeCan` with CommitIndex moved up by `c`: the entries are applied, then the
deferred calls run, last first: resubmitStalledTickets if the first entry has just committed (10428), and
ifLostTicketTellClient (10287-10291). -/
def commit (s : S) (n : Nid) (c : Nat) : S :=
  let s1 := applyN s n c
  let s2 := if (s1.nodes n).noop0 && !(s.nodes n).noop0 then resubmit s1 n else s1
  if (s.nodes n).applied < (s2.nodes n).applied then ifLost s2 n else s2

/-- Saving an entry in the leader's log. -/
def append (s : S) (n : Nid) (w : What) (own : Bool) : S :=
  let nd := s.nodes n
  { s.setNode n (fun nd => { nd with log := nd.log ++ [⟨nd.term, w, own⟩] }) with
    logged := s.logged ++ [⟨nd.log.length + 1, nd.term, w, n⟩] }

/-- tube.go:6304-6365 `prepOne` and 6464-6481 of `replicateBatch` for one ticket: LogIndex assigned, entry
saved, ticket into WaitingAtLeader unless the cluster has one node. -/
def flushOne (n : Nid) (single : Bool) (s : S) (t : Req) : S :=
  let i := (s.nodes n).log.length + 1
  let s := append s n (.req t) (self s n t)
  s.setNode n fun nd =>
    { nd with
      idx := fun u => if u = t then i else nd.idx u
      wal := if single then nd.wal else mset t nd.wal }

/-- tube.go:6407-6505 `replicateBatch`; a cluster of one node commits at once. -/
def flush (s : S) (n : Nid) (single : Bool) : S :=
  let b := (s.nodes n).batch
  let s := s.setNode n fun nd => { nd with batch := [] }
  let s := b.foldl (flushOne n single) s
  if single && !b.isEmpty then commit s n ((s.nodes n).log.length - (s.nodes n).applied) else s

/-- tube.go:7239-7417 `becomeLeader` in term T: the first entry is logged (at once committed if the node is
alone), WaitingAtFollow's tickets go to WaitingAtLeader. The first entry's own ticket in WaitingAtLeader is left
out. -/
def elect (s : S) (n : Nid) (T : Nat) (single : Bool) : S :=
  if (s.nodes n).leading || decide (T ≤ (s.nodes n).term) then s
  else
    let s := s.setNode n fun nd => { nd with leading := true, term := T, leader := some n }
    let s := append s n (.noop n T) false
    let s := if single then commit s n ((s.nodes n).log.length - (s.nodes n).applied) else s
    s.setNode n fun nd =>
      { nd with
        wal := (all nd nd.waf).foldl (fun w t => mset t w) nd.wal
        waf := [] }

/-- tube.go:10842-10882 `tellClientsImNotLeader` and 6368-6400 of `clearBatchToSubmit`, the messages; the
node's own calls have no circuit. -/
def tellStepped (n : Nid) (s : S) (t : Req) : S :=
  if self s n t then s else s.send (.stepped t (s.nodes n).leader)

/-- tube.go:6516-6608 `becomeFollower` at term T. -/
def depose (s : S) (n : Nid) (T : Nat) : S :=
  let nd := s.nodes n
  let s1 := s.setNode n fun nd =>
    { nd with
      leading := false
      noop0 := false
      term := if nd.term < T then T else nd.term
      leader := if nd.term < T then none else nd.leader }
  let s2 := if nd.leading then nd.batch.foldl (tellStepped n) s1 else s1
  let s3 := s2.setNode n fun nd => { nd with batch := [] }
  if nd.leading then
    ((all nd nd.wal).foldl (tellStepped n) s3).setNode n fun nd => { nd with wal := [] }
  else s3

/-- tube.go:1268-1290 `<-s.writeReqCh` with 4902-5099 `redirectToLeader`, for a new call on node n. If the
node knows a leader, `ckt` says whether it has a circuit to it, `arrives` whether the forward goes out, `fails`
whether SendOneWay reports an error (in which case the ticket is neither kept nor finished, 5083-5093). -/
def submit (s : S) (n : Nid) (ckt arrives fails : Bool) : S :=
  let t := s.next
  let s := { s with next := t + 1 }
  if (s.nodes n).leading then
    replicate (s.setCaller t fun _ => { home := n, alive := true }) n t
  else
    let s := s.setNode n fun nd => if nd.leader = some n then { nd with leader := none } else nd
    match (s.nodes n).leader with
    | none => s.setCaller t fun _ => { home := n, alive := true, finished := true, ans := some (.err .noLeader) }
    | some l =>
      if ckt then
        let s := s.setCaller t fun _ => { home := n, alive := true, fwd := true }
        let s := if arrives then s.send (.redirect l t) else s
        if fails then s else s.setNode n fun nd => { nd with waf := mset t nd.waf }
      else s.setCaller t fun _ => { home := n, alive := true, finished := true, ans := some (.err .noLeader) }

/-- tube.go:1801-1848 `RedirectTicketToLeaderMsg`: the leader replicates, others answer with an error
(14677-14710 `replyToForwardedTicketWithError`, then FinishTicket). -/
def onRedirect (s : S) (d : Nid) (t : Req) : S :=
  if (s.nodes d).leading then replicate s d t
  else
    let s1 := if self s d t then s else s.send (.answer t (.err .notLeader))
    finishCopy s1 d false t (.err .notLeader)

/-- LogIndex carried by an answer. -/
def Ans.idx : Ans → Nat
  | .ok i => i
  | .err _ => 0

/-- tube.go:1753-1799 `LeaderToClientTicketAppliedMsg`: the question is looked up in WaitingAtFollow, then in
WaitingAtLeader; answerToQuestionTicket copies the outcome, LogIndex included (11005). -/
def onAnswer (s : S) (t : Req) (a : Ans) : S :=
  let h := (s.callers t).home
  if t ∈ (s.nodes h).waf ∨ t ∈ (s.nodes h).wal then
    finishOwn (s.setNode h fun nd => { nd with idx := fun u => if u = t then a.idx else nd.idx u }) h false t a
  else s

/-- tube.go:1935-1955 `TellClientSteppedDown`: only the leader's name is noted. -/
def onStepped (s : S) (t : Req) (l : Option Nid) : S :=
  s.setNode (s.callers t).home fun nd => match l with | none => nd | some l => { nd with leader := some l }

def deliver (s : S) (i : Nat) : S :=
  match s.net[i]? with
  | none => s
  | some m =>
    let s := { s with net := s.net.eraseIdx i }
    match m with
    | .redirect d t => onRedirect s d t
    | .answer t a => onAnswer s t a
    | .stepped t l => onStepped s t l

/-- The entries stand in the list of what leaders have logged, at the positions after `k`. -/
def known (s : S) (k : Nat) (es : List (Nat × What)) : Bool :=
  es.zipIdx.all fun x => s.logged.any fun p => p.idx == k + x.2 + 1 && p.term == x.1.1 && p.what == x.1.2

def copies (es : List (Nat × What)) : List Entry := es.map fun e => ⟨e.1, e.2, false⟩

/-- A follower's log after AppendEntries (tube.go:7880- `handleAppendEntries`): cut after position `k`, never
below what has been applied, and continued with entries that leaders have logged. Which, is left to the
environment. -/
def receive (s : S) (n : Nid) (k : Nat) (es : List (Nat × What)) : S :=
  let nd := s.nodes n
  if !nd.leading && decide (nd.applied ≤ k) && decide (k ≤ nd.log.length) && known s k es then
    s.setNode n fun nd => { nd with log := nd.log.take k ++ copies es }
  else s

/-- A follower's log after a snapshot has been installed: it stands for entries that leaders have logged, as
many at least as the node has applied and the same up to there. -/
def install (s : S) (n : Nid) (es : List (Nat × What)) : S :=
  let nd := s.nodes n
  if !nd.leading && decide (((nd.log.take nd.applied).map fun e => (e.term, e.what)) = es.take nd.applied)
      && decide (nd.applied ≤ es.length) && known s 0 es then
    s.setNode n fun nd =>
      { nd with
        log := copies es
        applied := es.length
        base := es.length }
  else s

/-- Log compaction up to position b, which has been applied. -/
def compact (s : S) (n : Nid) (b : Nat) : S :=
  let nd := s.nodes n
  if decide (nd.base ≤ b) && decide (b ≤ nd.applied) then s.setNode n fun nd => { nd with base := b } else s

/-- The process of node n stops and starts anew: the log, the term and what is applied are kept, the rest is
gone, and so are the calls made on it. -/
def crash (s : S) (n : Nid) : S :=
  let s := s.setNode n fun nd =>
    { nd with
      leading := false
      leader := none
      noop0 := false
      waf := []
      wal := []
      batch := []
      idx := fun _ => 0
      log := nd.log.map fun e => { e with own := false } }
  { s with callers := fun t => if (s.callers t).home = n then { s.callers t with alive := false } else s.callers t }

inductive Ev where
  /-- a call is made on node n -/
  | submit (n : Nid) (ckt arrives fails : Bool)
  /-- the i-th message under way arrives / is lost -/
  | deliver (i : Nat)
  | lose (i : Nat)
  /-- a batch is submitted -/
  | flush (n : Nid) (single : Bool)
  | elect (n : Nid) (T : Nat) (single : Bool)
  | depose (n : Nid) (T : Nat)
  /-- a non-leader learns the leader's name -/
  | learn (n l : Nid)
  | receive (n : Nid) (k : Nat) (es : List (Nat × What))
  | install (n : Nid) (es : List (Nat × What))
  | commit (n : Nid) (c : Nat)
  | compact (n : Nid) (b : Nat)
  | crash (n : Nid)
deriving Repr

def step (s : S) : Ev → S
  | .submit n c a f => submit s n c a f
  | .deliver i => deliver s i
  | .lose i => { s with net := s.net.eraseIdx i }
  | .flush n g => flush s n g
  | .elect n T g => elect s n T g
  | .depose n T => depose s n T
  | .learn n l => if (s.nodes n).leading then s else s.setNode n fun nd => { nd with leader := some l }
  | .receive n k es => receive s n k es
  | .install n es => install s n es
  | .commit n c => commit s n c
  | .compact n b => compact s n b
  | .crash n => crash s n

def run (s : S) (es : List Ev) : S := es.foldl step s

end Verif.Ticket

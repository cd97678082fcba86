import Verif.Model.Raft
/-
Model of the consensus core of /repo/tube/tube.go with log compaction and snapshot
installation (tube/wal.go, tube/rle.go): what Model/Raft.lean leaves out.

* A node keeps the commands it has applied (`kv`, standing for KVstore and the rest of the
  applied state, with LastApplied = its length), the base of its log (BaseC, CompactTerm, equal
  to CompactionDiscardedLast) and the log past the base.
* The handlers for votes, acknowledgements, elections and client requests use of the log only
  its last index and term and entries past LastApplied; they are those of Model/Raft.lean,
  run on the whole history `full` of the node.
* Compaction runs after appends when the file is large (wal.go:887-899, tube.go:6226-6233,
  6474); here it may happen at any time. A leader sends a snapshot when an acknowledgement asks
  for one (tube.go:9910-9917); here at any time.
* The snapshot travels as one message; its fragments are in Model/Snapshot.lean. The check that
  it comes from the current leader (tube.go:17431) is left out: only leaders send snapshots here.
-/
namespace Verif.RaftCompact
open Verif.Raft

/-- `TubeNode` with RaftState and the write-ahead log. -/
structure CNode where
  inc : Nat := 0
  role : Role := .follower
  term : Nat := 0
  vote : Option PeerID := none
  mcTerm : Nat := 0
  commit : Nat := 0
  /-- the commands applied, LastApplied of them -/
  kv : List Entry := []
  /-- wal.logIndex.BaseC = state.CompactionDiscardedLast.Index -/
  base : Nat := 0
  /-- wal.logIndex.CompactTerm = state.CompactionDiscardedLast.Term -/
  baseTerm : Nat := 0
  /-- wal.raftLog: the entries with index above `base` -/
  log : List Entry := []
  yes : List Nat := []
  no : List Nat := []
  peers : List (PeerID × Nat) := []
  saved : Saved := {}
deriving DecidableEq, Repr

/-- The node as Model/Raft.lean sees it: the entries up to the base are among those applied. -/
def full (n : CNode) : Node :=
  { inc := n.inc, role := n.role, term := n.term, vote := n.vote, mcTerm := n.mcTerm,
    commit := n.commit, applied := n.kv.length, log := n.kv.take n.base ++ n.log, yes := n.yes,
    no := n.no, peers := n.peers, saved := n.saved }

/-- Take over the result of a handler of Model/Raft.lean: base as before, the log past it, and
the entries newly applied (tube.go:10249-10577 applies LastApplied+1 .. CommitIndex). -/
def back (n : CNode) (r : Node) : CNode :=
  { inc := r.inc, role := r.role, term := r.term, vote := r.vote, mcTerm := r.mcTerm,
    commit := r.commit, kv := n.kv ++ (r.log.drop n.kv.length).take (r.applied - n.kv.length),
    base := n.base, baseTerm := n.baseTerm, log := r.log.drop n.base, yes := r.yes, no := r.no,
    peers := r.peers, saved := r.saved }

/-- wal.go `LogicalLen`, lli: the last index. -/
def lastIdx (n : CNode) : Nat := n.base + n.log.length

/-- tube.go `AppendEntries`: as in Model/Raft.lean, with `terms` (LogTermsRLE) the terms past
the leader's base. -/
structure CAE extends AE where
  base : Nat
  baseTerm : Nat
deriving DecidableEq, Repr

/-- tube.go `Snapshot`: the state (CurrentTerm, CommitIndex, the applied commands up to
LastApplied, MC) and the AppendEntries sent along (17740-17773): `entries` past LastApplied, the
leader's base, and the terms past it. -/
structure Snap where
  src : PeerID
  term : Nat
  mcTerm : Nat
  commit : Nat
  kv : List Entry
  entries : List Entry
  base : Nat
  baseTerm : Nat
  terms : List Nat
deriving DecidableEq, Repr

inductive CMsg where
  | reqVote (m : ReqVote)
  | vote (m : Vote)
  | ae (m : CAE)
  | ack (m : Ack)
  | snap (m : Snap)
deriving DecidableEq, Repr

/-- What a follower's comparison with the leader's log tells: `extends`, the largest common
index, and whether a snapshot is needed. -/
structure Cmp where
  ext : Bool
  lcp : Nat
  needSnap : Bool
deriving DecidableEq, Repr

/-- rle.go:443-745 `leaderLog.Extends(followerLog)` on logs with base `lb`, `fb`, base terms
`lt`, `ft` and terms `lts`, `fts` past the base. -/
def extendsB (lb lt : Nat) (lts : List Nat) (fb ft : Nat) (fts : List Nat) : Cmp :=
  let fEnd := fb + fts.length
  let lEnd := lb + lts.length
  if fb = 0 ∧ fts = [] then ⟨true, 0, false⟩
  else if lts = [] then
    if lb = 0 then ⟨false, 0, false⟩
    else if fb = lb then ⟨decide (fts = []), lb, false⟩
    else if lb < fb then ⟨false, lb, false⟩
    else ⟨false, fb, true⟩
  else if fEnd ≤ lb then
    if fts ≠ [] then
      if fEnd = lb ∧ fts.getLast?.getD 0 = lt then ⟨true, fEnd, false⟩ else ⟨false, fb, true⟩
    else if fb < lb then ⟨false, fb, true⟩
    else if ft = lt then ⟨true, fb, false⟩ else ⟨false, fb, false⟩
  else if fts = [] then ⟨true, fb, false⟩
  else if lEnd ≤ fb then ⟨false, lEnd, false⟩
  else
    let mb := max fb lb
    let c := commonPrefix (lts.drop (mb - lb)) (fts.drop (mb - fb))
    ⟨decide (fEnd = mb + c), mb + c, false⟩

/-- Term at index `i`: CompactTerm at the base, the log's past it. -/
def cTermAt (n : CNode) (i : Nat) : Nat :=
  if i = n.base then n.baseTerm else termAt n.log (i - n.base)

/-- tube.go:7495-7703 `logsAreMismatched`. The comparison below the base (7600-7660) is off by
one in its numbering: the entry at the base's index is compared with CompactTerm and again with
the first entry past the base. -/
def mismatchedB (n : CNode) (m : CAE) : Bool :=
  if m.entries = [] then false
  else if m.prev = 0 then false
  else if lastIdx n < m.prev then true
  else if n.base = 0 ∨ n.base < m.prev then
    if termAt n.log (m.prev - n.base) ≠ m.prevTerm then true
    else (List.zip (n.log.drop (m.prev - n.base)) m.entries).any fun p => decide (p.1.term ≠ p.2.term)
  else if m.prev = n.base then decide (m.prevTerm ≠ n.baseTerm)
  else if m.prev + m.entries.length < n.base then false
  else
    match m.entries.drop (n.base - m.prev - 1) with
    | [] => false
    | [e] => decide (n.baseTerm ≠ e.term)
    | e :: es => (List.zip (n.baseTerm :: terms n.log) (e.term :: terms (e :: es))).any
        fun p => decide (p.1 ≠ p.2)

/-- rle.go:130-183 `Truncate`, called by `overwriteEntries` (wal.go:704-901) when entries are cut
off: keeping up to `keep` > BaseC sets CompactTerm to the term of the last entry kept. -/
def truncTerm (n : CNode) (keep : Nat) : Nat :=
  if keep < lastIdx n ∧ n.base < keep then termAt n.log (keep - n.base) else n.baseTerm

/-- wal.go:845-850 sets the write-ahead log's own last term to 0 when nothing above the base is
kept, while logIndex.lastTerm() is then CompactTerm (rle.go:63-71); the next entry written finds
them different and panics (wal.go:433-441). -/
def overwritePanics (n : CNode) (keep : Nat) : Bool :=
  decide (keep ≤ n.base) && decide (n.log ≠ []) && decide (n.baseTerm ≠ 0)

/-- tube.go:8585-8595 and 8561-8583: the comparison reported after an update. -/
def cmpAfter (n : CNode) (m : CAE) : Nat × Bool :=
  if lastIdx n = m.base + m.terms.length ∧
      (if n.log = [] then n.baseTerm else lastTerm n.log) =
        (if m.terms = [] then m.baseTerm else m.terms.getLast?.getD 0) then (lastIdx n, false)
  else
    let c := extendsB m.base m.baseTerm m.terms n.base n.baseTerm (terms n.log)
    (if c.lcp = 0 then n.base else c.lcp, c.needSnap)

/-- tube.go:7792-8620 `handleAppendEntries` with a compacted log. `none`: the panic of
`overwritePanics`. The early return of `overwriteEntries` for entries wholly below the base
(wal.go:743-747) is what `drop` does below. -/
def handleAE (me : Nat) (n : CNode) (m : CAE) : Option (CNode × Option Ack) :=
  if m.term < 1 then some (n, none)
  else
    let c := extendsB m.base m.baseTerm m.terms n.base n.baseTerm (terms n.log)
    let r := { full n with commit := max n.commit (min m.commit c.lcp) }
    if m.term < n.term then
      some (back n (commitWhatWeCan r), some (mkAck me r m.toAE true false (if 0 < n.base then n.base else c.lcp)))
    else
      let r := follow r m.toAE
      if c.lcp = m.base + m.terms.length then
        some (back n (commitWhatWeCan r), some (mkAck me r m.toAE false c.needSnap c.lcp))
      else if mismatchedB n m then
        some (back n (commitWhatWeCan r),
          some (mkAck me r m.toAE true (c.needSnap || decide (c.lcp < m.prev)) c.lcp))
      else if m.entries = [] then
        some (back n (commitWhatWeCan r), some (mkAck me r m.toAE true c.needSnap c.lcp))
      else if !c.ext && decide (c.lcp < m.prev) then
        some (back n (commitWhatWeCan r), some (mkAck me r m.toAE true c.needSnap c.lcp))
      else
        match updateLog r.log m.toAE c.ext c.lcp with
        | none => some (back n (commitWhatWeCan r), some (mkAck me r m.toAE false c.needSnap c.lcp))
        | some log =>
          if !c.ext && overwritePanics n c.lcp then none
          else
            let r := { r with log := log, commit := max r.commit (min m.commit log.length) }
            let n' := { back n (commitWhatWeCan r) with
              baseTerm := if c.ext then n.baseTerm else truncTerm n c.lcp }
            let a := cmpAfter n' m
            some (n', some (mkAck me r m.toAE false a.2 a.1))

/-- wal.go:1153-1370 `Compact(LastApplied)` with rle.go:191-300 `CompactNewBeg`: the entry at
LastApplied is kept. `none` is the panic when LastApplied lies past the log. -/
def compact (n : CNode) : Option CNode :=
  if n.log = [] ∨ n.kv.length ≤ n.base + 1 then some n
  else if lastIdx n < n.kv.length then none
  else some { n with
    base := n.kv.length - 1, baseTerm := termAt n.log (n.kv.length - 1 - n.base),
    log := n.log.drop (n.kv.length - 1 - n.base) }

/-- tube.go:8824-8869 `newAE` with 9605-9745 `sendAppendEntriesTo`: entries `beg .. beg+cnt-1`,
`beg` past the base; PrevLogTerm at the base is CompactTerm. `cnt = 0`: a heartbeat (8895). -/
def mkCAE (me : Nat) (n : CNode) (beg cnt : Nat) : CAE :=
  let prev := if cnt = 0 then 0 else beg - 1
  { src := (me, n.inc), term := n.term, prev := prev,
    prevTerm := if prev = 0 then 0 else cTermAt n prev,
    entries := (n.log.drop (beg - 1 - n.base)).take cnt, terms := terms n.log,
    commit := n.commit, mcTerm := n.mcTerm, base := n.base, baseTerm := n.baseTerm }

/-- tube.go:17740-17773 `getStateSnapshot`. -/
def mkSnap (me : Nat) (n : CNode) : Snap :=
  ⟨(me, n.inc), n.term, n.mcTerm, n.commit, n.kv, n.log.drop (n.kv.length - n.base), n.base, n.baseTerm,
    terms n.log⟩

/-- The AppendEntries inside the snapshot (tube.go:17752-17766). -/
def snapAE (m : Snap) : CAE :=
  { src := m.src, term := m.term, prev := m.kv.length, prevTerm := lastTerm m.kv, entries := m.entries,
    terms := m.terms, commit := m.commit, mcTerm := m.mcTerm, base := m.base, baseTerm := m.baseTerm }

/-- tube.go:17640-17722 with wal.go:1393-1424 `installedSnapshot`: state replaced and saved, the log
emptied, its base at LastApplied. -/
def install (n : CNode) (m : Snap) : CNode :=
  { n with
    mcTerm := m.mcTerm, commit := m.commit, kv := m.kv, base := m.kv.length, baseTerm := lastTerm m.kv,
    log := [], saved := ⟨n.term, n.vote, m.mcTerm, m.commit, m.kv.length⟩ }

/-- tube.go:17562-17733 `applyNewStateSnapshot`. -/
def handleSnap (me : Nat) (n : CNode) (m : Snap) : Option (CNode × Option Ack) :=
  if m.term ≠ n.term then some (n, none) else handleAE me (install n m) (snapAE m)

/-- Process restart (tube.go:872-912; wal.go:150-360): the base is the index before the first entry
in the log file; an empty file has base 0. -/
def restart (n : CNode) : CNode :=
  { inc := n.inc + 1, role := .follower, term := n.saved.term, vote := n.saved.vote,
    mcTerm := n.saved.mcTerm, commit := n.saved.commit, kv := n.kv,
    base := if n.log = [] then 0 else n.base,
    baseTerm := if n.log = [] then 0 else termAt n.kv n.base, log := n.log, saved := n.saved }

/-- All nodes and every message ever sent, as in Model/Raft.lean; no history. -/
structure CSys where
  nodes : Nat → CNode := fun _ => {}
  msgs : List CMsg := []

inductive CAction where
  /-- an action of Model/Raft.lean -/
  | act (a : Action)
  /-- log compaction -/
  | compact (v : Nat)
  /-- a leader sends a snapshot -/
  | snap (v : Nat)
  /-- snapshot `k` is installed at `v` and the process dies after the old log was removed and
  before the snapshot's entries are written (between tube.go:17719 and 17724) -/
  | crashMid (v k : Nat)
deriving DecidableEq, Repr

def CSys.put (s : CSys) (v : Nat) (n : CNode) (ms : List CMsg) : CSys :=
  ⟨upd s.nodes v n, s.msgs ++ ms⟩

/-- Vote requests as messages of this model. -/
def lift : Msg → Option CMsg
  | .reqVote m => some (.reqVote m)
  | .vote m => some (.vote m)
  | .ack m => some (.ack m)
  | .ae _ => none

def CMsg.toward (v : Nat) : CMsg → Bool
  | .reqVote m => m.src.1 ≠ v
  | .ae m => m.src.1 ≠ v
  | .snap m => m.src.1 ≠ v
  | .vote m => m.cand.1 = v
  | .ack m => m.leader.1 = v

/-- Dispatch on the message kind, tube.go:1633-1927. -/
def receive (mem : List Nat) (v noop : Nat) (n : CNode) (sticky nofault forced : Bool) :
    CMsg → Option (CNode × List CMsg)
  | .reqVote m => let r := handleRequestVote v (full n) m sticky; some (back n r.1, [.vote r.2])
  | .vote m => (tallyVote mem v noop (full n) m nofault).map fun r => (back n r, [])
  | .ae m => (handleAE v n m).map fun r => (r.1, r.2.toList.map .ack)
  | .snap m => (handleSnap v n m).map fun r => (r.1, r.2.toList.map .ack)
  | .ack m => some (back n (handleAck mem v (full n) m nofault forced), [])

/-- One step; `none` if the action is not enabled or the process panics (the panic's effect, a
restart, is the `crash` action). The conditions are those of Model/Raft.lean. -/
def step (mem : List Nat) (s : CSys) : CAction → Option CSys
  | .act (.timeout v noop) =>
    if v ∈ mem ∧ (s.nodes v).role = .follower then
      (beginElection mem v noop (full (s.nodes v))).map fun r =>
        s.put v (back (s.nodes v) r.1) (r.2.filterMap lift)
    else none
  | .act (.preVote v) =>
    if v ∈ mem ∧ (s.nodes v).role = .candidate then
      some (s.put v { s.nodes v with role := .follower } [])
    else none
  | .act (.stepDown v) =>
    if v ∈ mem ∧ (s.nodes v).role = .leader then
      some (s.put v (back (s.nodes v) (becomeFollower (full (s.nodes v)) (s.nodes v).term 0 true)) [])
    else none
  | .act (.deliver v k noop sticky nofault forced) =>
    match s.msgs[k]? with
    | none => none
    | some m =>
      if v ∈ mem ∧ m.toward v then
        (receive mem v noop (s.nodes v) sticky nofault forced m).map fun r => s.put v r.1 r.2
      else none
  | .act (.client v cmds) =>
    if v ∈ mem ∧ (s.nodes v).role = .leader then
      some (s.put v (back (s.nodes v) (replicateBatch mem (full (s.nodes v)) cmds)) [])
    else none
  | .act (.send v beg cnt) =>
    if v ∈ mem ∧ (s.nodes v).role = .leader ∧
        (cnt = 0 ∨ ((s.nodes v).base + 1 ≤ beg ∧ beg - 1 + cnt ≤ lastIdx (s.nodes v))) then
      some (s.put v (s.nodes v) [.ae (mkCAE v (s.nodes v) beg cnt)])
    else none
  | .act (.join v p) =>
    if v ∈ mem ∧ p.1 ≠ v then
      some (s.put v { s.nodes v with
        peers := (s.nodes v).peers.filter (fun x => x.1.1 ≠ p.1) ++
          [(p, 0)] } [])
    else none
  | .act (.leave v p) =>
    if v ∈ mem then
      some (s.put v { s.nodes v with peers := (s.nodes v).peers.filter fun x => x.1 ≠ p } [])
    else none
  | .act (.crash v) => if v ∈ mem then some (s.put v (restart (s.nodes v)) []) else none
  | .compact v =>
    if v ∈ mem then (compact (s.nodes v)).map fun n => s.put v n [] else none
  | .snap v =>
    if v ∈ mem ∧ (s.nodes v).role = .leader then
      some (s.put v (s.nodes v) [.snap (mkSnap v (s.nodes v))])
    else none
  | .crashMid v k =>
    match s.msgs[k]? with
    | some (.snap m) =>
      if v ∈ mem ∧ m.src.1 ≠ v ∧ m.term = (s.nodes v).term then
        some (s.put v (restart (install (s.nodes v) m)) [])
      else none
    | _ => none

def run (mem : List Nat) (s : CSys) : List CAction → Option CSys
  | [] => some s
  | a :: as => (step mem s a).bind fun s' => run mem s' as

end Verif.RaftCompact

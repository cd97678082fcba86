# Design of the formal model of rpc25519

Everything is in Lean 4 under `lean/Verif/`. Layout:

* `Verif/Model/*.lean` - the code, function by function. Each definition cites the file and lines in /repo it models and says what was simplified.
* `Verif/Spec/*.lean`  - small specifications, independent of the model's helpers.
* `Verif/Proofs/*.lean` - helper lemmas and invariants.
* `Verif/Props/*.lean` - the property theorems only, named `Cnn_...`, each with an `example` showing that its hypotheses can be met. `_partial` marks theorems weaker than the listed property; `_false`/`_counterexample` marks proofs that the code does not satisfy the listed property.

## Trusted base

* Lean's kernel. Axioms used by any theorem: `propext`, `Classical.choice`, `Quot.sound` only (no `sorry`, no `native_decide`, no `bv_decide`, no added axioms).
* The reading of the Go source into the definitions in `Verif/Model`. Go code is not executed or parsed by any tool; fidelity is by inspection, with line citations.
* Go `int`/`int64`/`uint64` are modelled as `Nat`/`Int` without overflow unless a definition says otherwise.
* Cryptographic primitives (AEAD, Blake3, crc) and compression codecs are parameters with the stated ideal property as an explicit hypothesis of each theorem that needs it (never an axiom).
* Go maps are finite maps; goroutine interleavings are modelled as arbitrary orderings of atomic steps, where the atomic steps are the critical sections / event-loop iterations in the code.
* A Go `panic` is an explicit result (`none`/error), never silently totalised.

## Per-property plan

* **C01 Framed messages survive any TCP segmentation** - Byte streams are `List UInt8`; a connection is a list of non-empty read chunks. `sendMessage`/`readMessage`/`readFull` are modelled byte for byte. Proof: induction on the message list and on the chunk list. The msgpack body encoding is an opaque byte string.
* **C02 A reader never yields a message from a bad or truncated frame** - Same model; case analysis of `readMessage`: success implies the frame prefix, error otherwise, consumed length exact.
* **C03 Exact-length read and write helpers** - `readFull`/`writeFull` modelled over an oracle list of (n, err) results of the underlying Read/Write; induction on the oracle.
* **C04 Compression tag is unambiguous** - `encodeMagic7`/`decodeMagic7` as functions String -> Except / UInt8 -> Except; case analysis.
* **C05 Receiver undoes whatever compression the sender applied** - `handleCompress`/`handleDecompress` with the s2 codec as a parameter assumed to round trip. The code panics for tags 2..6: proved as a counterexample, the rest as `_partial`.
* **C06 No encryption nonce is used twice on a connection** - Nonces as byte lists with the little-endian increment of the code; theorem: injectivity of k-fold increment below 256^n and disjointness of the two sides' ranges until the top byte is reached.
* **C07 Encrypted frames round trip within the size limit** - Frame arithmetic and tag checks of the encoder/decoder with an AEAD parameter satisfying open(seal)=id. Known disagreement: sender's limit check leaves out the overhead that the receiver includes, so near-limit sizes fail.
* **C08 Hybrid logical clock never goes backwards** - HLC over Int (no int64 overflow); each operation is the successful iteration of its CAS loop; concurrent callers = any interleaving of successful CASes. Induction.
* **C09 Happened-before implies smaller timestamp** - Executions as event lists with send/receive links; induction on happened-before.
* **C10 Compressed term index equals the plain log** - TermsRLE as structure; refinement to (base, list of terms). Truncate's update of the compaction term is a known disagreement.
* **C11 Log comparison finds exactly the common prefix** - `Extends` for BaseC=0 logs vs. spec on plain lists.
* **C12 Log comparison stays correct under compaction** - `Extends` with compaction vs. pairs of full logs.
* **C13 Write-ahead log holds exactly the entries written** - In-memory WAL operations (memwal + index) refine a plain list of entries.
* **C14 Reopening the write-ahead log gives the same log** - File as list of records with byte offsets plus the `begseekpos` table; known disagreement after reopening; partial theorem for histories where the table stays aligned.
* **C15 Log hash chain detects any change** - Hash as an injective function parameter; chain value recursion exactly as coded. Known disagreement for the first entry.
* **C16 A crash never makes the log unopenable** - WAL and parlog files as byte counts/records with synced/unsynced parts, crash keeps synced data plus any prefix of the unsynced. Known disagreement.
* **C17 State save is atomic** - File-system model with tmp file, fsync, rename; crash at every step.
* **C18 At most one leader per term** - Raft transition system (see below). Inductive invariants on votes.
* **C19 Log matching** - Raft transition system; inductive invariant.
* **C20 Committed entries are never lost or changed** - Raft transition system. Counterexample executions found by reading and by failed proofs (ack of a conflicting tail; a node counted under two PeerIDs; an ack of an earlier stint) are replayed in the model; the partial theorem excludes exactly those steps. Candidates do not save their term, but the proof shows that no crash can exploit it.
* **C21 Leader only commits what a quorum stores** - `leaderAdvanceCommitIndex` on arbitrary match vectors.
* **C22 A granted vote is never given twice in a term** - Single-node vote handler with persistent/volatile split, arbitrary message and crash sequences.
* **C23 Asking for pre-votes disturbs nobody** - `handleRequestPreVote` decision function.
* **C24 A diverged follower is repaired** - Leader/follower exchange as a function on pairs of logs. Known disagreement (livelock) shown by a fixpoint theorem; partial: convergence when the logs are compatible.
* **C25 Entries are applied once and in order** - `commitWhatWeCan` loop.
* **C26 Snapshot parts reassemble to the snapshot sent** - Reassembly state machine over arbitrary fragment sequences, checksum injective.
* **C27 Reconfiguration keeps quorums overlapping** - `quorumsOverlap` on duplicate-free name lists, both directions.
* **C28 Membership versions only move forward** - VersionGT/GTE/Equal order laws; setMC fold.
* **C29 A lease excludes other writers until it ends** - KV store as finite map of leaves; ops write/cas/delete/table ops; induction over op lists. Table delete/rename ignore leases: known disagreement; partial without table ops.
* **C30 Fencing tokens grow with each change of holder** - Same model; deletion resets the epoch: known disagreement; partial for histories without deletion.
* **C31 Compare-and-swap is atomic and conditional** - Same model; decision theorem.
* **C32 Replicas that apply the same log hold the same data** - Apply function with local clock argument; auto-delete depends on it: known disagreement; partial without auto-delete leaves.
* **C33 Session requests take effect at most once** - Session table + log model; known disagreement (retry while in flight); partial when a retry is only submitted after the first was applied or lost.
* **C34 Ordered map behaves as a map with sorted iteration** - omap model with tree as sorted list, version and ordercache.
* **C35 Deleting while iterating the ordered map** - Iteration with body that deletes; known disagreement.
* **C36 Radix tree behaves as a sorted map** - ART model; tree nodes with compressed prefixes and children maps (node sizes abstracted to sorted child lists).
* **C37 Nearest-key searches in the radix tree** - ART search model.
* **C38 Quorum freshness time is the quorum-th newest** - pongPQ as sorted list.
* **C39 Pending-ticket index stays consistent** - imap as map + ordered index.
* **C40 Connection limit is never exceeded** - Semaphore transition system.
* **C41 Chunking covers the file exactly** - Chunker loops on byte lists with gear table as parameter.
* **C42 Chunking is local and streamable** - Prefix-locality of the cut function and buffer-refill loop.
* **C43 Sync plan reconstructs the goal file** - Plan/apply on chunk lists, hash injective on the chunks involved.
* **C44 Only missing chunks are transferred** - Plan model.
* **C45 Content store returns what was stored** - CAS index operations; known disagreements (compressed bytes returned after verifying open, re-append panic).
* **C46 Store index records round trip** - Byte-level record codec.
* **C47 Aligned sparse span stays inside the hole** - Integer arithmetic.
* **C48 Padding leaks at most log-log bits and is bounded** - Nat arithmetic with bit length.
* **C49 Replicated register reads see completed writes** - Hermes: known disagreement (completes one ack early); counterexample execution.
* **C50 Replica timestamps never regress and ties have one winner** - Hermes timestamp order and invalidation merge.
* **C51 Each reply completes the call it answers** - Client transition system: seqno counter, waiting table, arbitrary incoming messages.
* **C52 Upload stream delivers every part once, in order** - Connection model: per-call queues.
* **C53 Download stream marks its first and last part** - `sendDownloadPart` counter; one-part download is a known disagreement.
* **C54 A cancellation reaches the call it names** - Goroutine interleaving model; known disagreement (cancel can run before registration).
* **C55 Fragment and message conversion loses nothing** - Field-wise record model.
* **C56 Fragment comparison is a total order** - Lexicographic comparison; `cmp > 1` is a known disagreement.
* **C57 Peer address strings parse back** - String splitting on '/'; url.Parse abstracted.
* **C58 Interval arithmetic of spans** - Integer arithmetic.

* **C59 Concurrent senders never mix their bytes** - Senders as sequences of buffer writes under their mutex, any schedule; the server's two mutexes are a known disagreement.
* **C60 Range and prefix reads** - KV model; scans against the contents in key order. Descending prefix reads are a known disagreement. The scan relies on the tree's `Ascend`/`Descend` being right for the bounds given (C36), which fails for bounds below a prefix common to all keys.
* **C61 An expired lease can be taken over** - KV model plus the leader's dry run before replication; the dry run compares with a zero time: known disagreement.
* **C62 Reads return the last write** - KV model against a history of operations.
* **C63 net/rpc calls get their own results** - The buffers shared by the goroutines of one connection as shared state, any interleaving; after a timeout a known disagreement.
* **C64 Changing the radix tree while iterating** - ART iterator model with arbitrary modifications between calls of Next; five known disagreements.
* **C65 Order statistics of the radix tree** - `At` with its kept iterator, `Atfar`, `LeafIndex`.
* **C66 Encoded values come back** - the greenpack template as `enc`/`dec` over a universe of field types (`Model/Greenpack.lean`), the field lists of 64 structs extracted from the generated code (`Model/Schemas.lean`), the `msgp` library as a record with stated laws, and a MessagePack implementation that meets them (`Model/Msgpack.lean`). Round trip by induction on nesting depth; composed with C01 for messages over a connection.
* **C67 Version skew** - the same decoder run with other field lists than the encoder's. Fresh targets; differences are at the top level of the struct, nested structs are the same in both versions.
* **C68 Save and load hooks** - the hooks as functions on the models of the ordered map (C34) and the radix tree (C36); Go's map order as an arbitrary permutation.
* **C69 Both ends of a handshake get the same key** - `Model/Handshake.lean`: the handshake functions over a record of primitives (X25519, HKDF, ed25519, x509 as parameters), the framing byte for byte. Needs that X25519 commutes and signatures verify, as hypotheses.
* **C70 No unchecked handshake is accepted** - the same functions, for arbitrary input. Low-order points pass the validity check and make X25519 fail, which the code turns into a panic: known disagreement.
* **C71 Session keys stay secret** - `Model/HandshakeSym.lean`: the same functions with symbolic primitives, a transition system of any number of sessions with an attacker who owns the network; the attacker's knowledge is an inductive predicate. Invariant: what each kind of known term can contain.
* **C72 The peer is who the handshake says** - the same transition system. Only the ephemeral key is signed (no role, no peer, no transcript), so agreement on the peer fails: executions as counterexamples, the part that holds as `_partial`.
* **C73 A configured pre-shared key protects the traffic** - decision model of `setupPSK`/`serveConn` and the loops; TCP without TLS skips the handshake and uses the zero key: known disagreement.
* **C74 The list of known keys decides** - `hostKeyVerifies` as a function of file contents and certificate list; text format of the file; sequences of connections.
* **C75 Refusing one client does not keep others out** - the accept loops as a transition system of running loop, held and served connections. Known disagreements: refused TLS connections are never closed and use up the limit; one refused QUIC client ends the loop.
* **C76 Parallel chunking covers the file exactly** - `ChunkFile2` as a function: candidates per segment, selection of cut points across segments, hashing per segment with its panics and departing workers, assembly, joining of zeros; an arbitrary cut function within the sizes. Known disagreement: when the file ends less than 2*min bytes after a segment boundary the stitching can crash, or silently leave out the end of the file.
* **C77 At most one leader per term while members are added and removed** - the transition system of C18 with the membership as part of each node's state, pre-votes, the
  reports kept per peer (`cktPlus.seen`) and `changeMembership` as a step (also from inside an acknowledgement). Proof from the history: established configurations (a majority reported
  holding it in its own term) form a chain, every later election starts from the newest of them or one of its immediate successors. Expected disagreement: the check counts reports of
  higher terms, and going through an empty membership is let through; so a `_partial` theorem plus counterexample runs.
* **C78 Committed writes survive membership changes** - the same system with logs. Expected disagreements: a removed leader counts itself when committing, and the check before a change
  only asks for the first entry of the term; counterexample runs, and a `_partial` theorem for what does hold.
* **C79 The simulated network delivers only what was sent, once** - `Model/Simnet.lean`: nodes with their read, pre-arrival, dropped and deaf queues (lists kept sorted by the comparison of pq.go), connections with their
  probabilities and counters, one function per handler, a random stream as parameter. Every handler is shown to be a sequence of small moves (accept, move between two queues, deliver, discard); the invariant (each accepted
  message in exactly one place) is proved per move.
* **C80 Messages on one simulated connection arrive in order** - refinement to a FIFO for nodes with a single connection (clients). Expected disagreement: a node with several connections (a server); the matching loop does not
  go back to the start of the pre-arrival queue after a match. Counterexample run, also for varying hop times.
* **C81 Injected faults hold** - from the guards of the deliver move, plus an invariant on the counters. Expected disagreement: a message that passed the drop decision once (then unheard, then brought back) is delivered over a connection that drops everything.
* **C82 Repair with redelivery** - `handleCircuitRepair` as a function. Expected disagreement: unheard messages are first moved to the read queue, where nothing ever takes them out. Proved for the dropped queue.
* **C83 The drop rate** - closed form by induction over the attempts; probabilities are fractions, not floats.
* **C84 A simulated connection is a byte stream** - `simconn.Read`/`Write` as functions over delivered messages. Expected disagreements: a Read that ran into its deadline leaves its request behind, which swallows the next message;
  Write of more than UserMaxPayload bytes accepts fewer without an error.
* **C85 A local read is never stale** - `Model/Lease.lean`: the Raft transition system of C18-C20 run under clocks. Each step gets a real time; every node reads its own clock (`clk`, any monotone function); the parts that Raft leaves to
  timers become functions of clock readings: `haveStickyLeader`, the phase two deadline of the pre-vote, the election timer, pings stamped by `newAEtoPeer`/`bcastAppendEntries` and confirmed by acknowledgements, and
  `leaderCanServeReadsLocally`. Proof: an invariant over acknowledgements (the node that sent one follows that leader, or its minimal election time has passed on its clock, or some later leader exists already), with which the first
  later election needs a majority whose acknowledgements have all run out; then C20's invariants give the entries. Expected disagreements: non-voting (shadow) replicas count towards the quorum of the lease; the broadcast stamps the
  ping after sending it; a restarted follower forgets the leader it promised to stick to; a late answer of a later term makes a follower forget it too.
* **C86 The good-until time** - same model; the promise holds while the serving leader stays in office. Expected disagreement: a leader that steps down votes for another at once.
* **C87 Real-time order** - on the transition system of C18-C20: if the position given to a request were filled by an applied entry already, then that entry, of the leader's own term, would be in the leader's log (log matching), which is shorter. Needs the conditions of C20.
* **C88 Nothing from nowhere** - an invariant over executions: every entry in the log of the leader of its own term has an action that put it there; applied entries are such entries.
* **C89 Views never go back** - member state machine (`setVers`, `handlePing`, the loop of `start`), system of members, the czar key (`doCAS` of C31) and pings; every change of the stored version is upward, by cases; comparisons against the lexicographic order.
* **C90 Equal versions, equal membership** - invariant: every view made in an epoch has a counter below that of the member who owns the epoch, or equals its list; an epoch is owned by one member, which never follows another's view of it.
* **C91 One czar** - invariant with clocks: who believes to be czar holds the key, or its clock is past the lease, since a takeover is stamped more than the drift bound after it.
* **C92 Caller in the list** - `handlePing` outright, by cases; where an expiring member makes the code forget the caller, an execution.
* **C93 No drop while leased** - invariant of one czar's term; executions across terms.
* **C94 Replacement** - `doCAS` on a lapsed key; where the remembered epoch is old, an invariant of all continuations.
* **C95 Told the view** - invariant: the digest kept is that of a delivered view, or of one read from the czar key.
* **C96 Directory sync copies** - a file system as a map from paths to directories, files and links, with the kernel's path walk (links followed, at most forty); the taker's run as a fold over the listing, the updates and the deletions in any order. The entry at every path after the run, by invariants of the folds; the changed files the code does not update as a theorem of its own.
* **C97 Permissions and times** - from the same description of the result; counterexamples for directories without subdirectories, empty files and files whose bits alone changed.
* **C98 Dry run** - a dry run is the run without deletions: equality of the two runs when there is nothing to delete; what is kept in a dry run.
* **C99 Stays inside** - invariant over all listings: no listed or existing path lies below a link, so every path walk ends below the target; counterexamples with `..`, with a link at the taker and with a link sent by the giver.
* **C100 Twice** - the description of the result applied to its own outcome.

Log compaction and snapshot installation (C101-C105, `RaftCompact`). A node keeps its applied
commands (`kv`), a base (BaseC) with its term (CompactTerm) and the log past the base; handlers that
only look at last index and term are those of the Raft model on the node's whole history;
`handleAppendEntries`, `logsAreMismatched`, `Extends`, compaction, snapshot taking and installation
and the restart are modelled on what the node still has.

* **C101 Agreement** - every run of the compacting system is followed by a run of invariants of the
  uncompacted one (a hidden state with full logs and messages); each delivery with a base is shown to
  act on the full logs as an uncompacted delivery may, under named conditions; each condition is shown
  necessary by a run in which two nodes apply different commands.
* **C102 Later leaders** - from the same invariant.
* **C103 Snapshot installs** - computation on any leader and follower state.
* **C104 Compaction is invisible** - compaction leaves the hidden state unchanged.
* **C105 No panic** - the panic of `overwriteEntries` is exactly an overwrite at the base.

Peer circuits (C106-C110, `Pump`). One peer: the goroutine that sorts incoming messages to circuits,
with its channels, the circuits' buffers, users reading and closing, connections delivering. A step is
one choice of a select statement; timers may fire whenever their case is armed. Messages, fragments
and their conversion are those of the `Frag` model.

* **C106 In order** - invariant relating everything delivered on a circuit, the fragment in the pump's
  hand and the queue to the history of arrivals; sublist for every run, a prefix and no gaps for runs
  in which neither of the two discarding timers fires; runs with a gap for each timer.
* **C107 Close** - invariant that a circuit is in the pump's table iff its context is not cancelled,
  and on the messages sent; the received message's effect by computation, for each reason.
* **C108 Count** - the same invariant.
* **C109 Automatic shutdown** - invariant over runs for the circuits flag (never acted on), computation
  and a run with two keys for one remote for the peers flag.
* **C110 Stalls** - enabledness of the timeout in the delivery state; invariants over continuations for
  the states that stay stuck.
* **C111 Fragment pool** (`FragPool`) - heap of fragments with a free list; invariant that held and free
  fragments are disjoint and free of repetition under a discipline of use; runs for double frees.
* **C113 Kept fragment** (`FragPool`) - equation between the message of the second send and that of a
  first send; the fields in which they differ for circuits between differently named services.
* **C112 Instances** (`PeerSvc`) - map of running instances per service name with the decision logic of
  bootstrapCircuit; invariant on the number running; runs for repeated ids and re-registration; the
  panics listed by exact condition.
* **C114 At most once** (`Ticket`) - cluster of nodes with waiting maps, batch, log and a network that loses
  and reorders; invariant that a request is in at most one of: a forward under way, one node's batch, the
  list of everything leaders have logged. Log replication is any list of entries leaders have logged.
* **C115 Truthful answers** (`Ticket`) - invariant: a success is backed by an applied entry; a request with an
  error answer (sent or given) has no carrier left, which no step can change.
* **C116 Forgotten requests** (`Ticket`) - false: "no carrier left and not answered" is shown to be kept by
  every step, and shown to be reached by a stall before the first commit, a step-down, an election of the
  waiting node and a failed send.
* **C117 Told** (`Ticket`) - the cases in which applying answers (partial); invariant that the "lost" error is
  never given; runs for the rest.
* **C118 Order** (`Ticket`) - invariant: accepted = logged ++ batch during a leadership.
* **C119-C121 Sparse files** (`Sparse`) - a file is its bytes, a map of the positions that hold allocated data and its
  disk usage; SEEK_DATA and SEEK_HOLE are searches in that map, punching, truncating and writing change bytes and map.
  The loops of FindSparseRegions, CopySparseFile and SparseDiff are followed with an invariant on the offset: everything
  before it has been reported, copied or compared. The regions are then fed to the chunker of `CDC`.
* **C122 Memory-only log** (`MemWAL`) - the NODISK twins of the calls of `WAL`, run beside the same plain log; invariant as in
  C13. Both logs run beside each other when no overwrite reaches below what was applied: the two plain logs are then equal.
  That calls return: each step succeeds when indexes follow on and terms do not go back.
* **C123 Random choices** (`Rand`) - each function as a loop over a list of 64-bit words. For any two results of a range there
  is a permutation of the words that exchanges them; applied word by word it carries the sequences that give one result
  onto those that give the other, so they are equally many at every length.
* **C124 Shared generator** (`RandLock`) - goroutines as lists of lock, unlock and draw actions around one mutex; all
  interleavings. Calls that lock once: every state has a next step until all have returned. Calls that lock twice: none.
* **C125 Waiting times** (`Rand`) - electionTimeoutDur over the rationals with any monotone rounding that is exact on the
  integers used; rngHop over the loop of C123.

* **C126 A majority can go on** (`PreVote`) - the transition system of C18-C20 with the pre-vote phase in front of every
  election. Each run is a run of that system (so C18, C19 hold). A schedule using only the majority is constructed from
  any state in which one of its members has the latest term, configuration and log (partial). A reachable state without
  such a member, and an invariant showing that no future of the majority alone has a leader (counterexample). Without the
  pre-vote phase the schedule exists from every reachable state.
* **C127 Consent** (`PreVote`) - invariant: counted pre-votes are granted pre-votes in the network for this process and term.
  A node cut off: its term stays, but for one election already agreed to.
* **C128 Pruning circuits** (`Prune`) - transition system of two nodes and any number of circuits between them: tables of each node,
  open ends, prune requests under way. Invariant: an end is closed only when a circuit with a smaller id exists, so the smallest
  stays; the closing loop at the end of the periodic check breaks it (crossing circuits, and the window of 10 to 20 seconds),
  and so does the late notice that a peer has left.
* **C129 Evidence** (`Prune`) - invariant tying recorded nonces to delivered requests, and requests with one nonce to one pair of circuits.
* **C130 Reproducible slices** (`EventQ`) - the comparisons of pq.go function by function, queues as lists sorted by them (the red-black tree
  is a library); a slice as in distributeMEQ and releaseReady: drain by one comparison, give out random numbers, drain by another.
  Both orders are determined by the requests without their numbers as long as no two are alike in all compared fields; two that
  are alike give the counterexample.
* **C131 Ordered queues** (`EventQ`) - each comparison is antisymmetric, transitive, and zero only for the same number; then insert, pop and
  del refine finite sets. A submitted batch has no time, which stops the scheduler.
* **C132 Sessions are known until they end** (`SessTable`) - the session table, the tree by end time and the table by client name as they are
  (entries are shared pointers on a heap); refinement to a ledger that is one map from ids to ends. Holds without snapshots and restarts when
  creation times of one client's sessions grow; snapshots (three ways) and leaders with clocks behind give counterexamples.
* **C133 Ended sessions are forgotten** (`SessTable`) - from the same refinement; a restart empties the tree by end time for good.
* **C134 Large chunk lists arrive whole** (`ReqChunks`) - the split of the first request, the packing loop (messages sent after any number of
  rounds, so that a loop without end can be said) and the giver's collecting loop; round trip by induction on the list. A request that is too
  large with few chunks, a chunk larger than a message, and a circuit that ends in between give counterexamples.
* **C135 No gaps** (`ReqChunks`) - the same loop on arbitrary messages; the check is made at the last message only.
* **C136 Cuts follow the content** (`CDC`, `CDCNew`) - stated on NextCut and on the lists of cuts of two files. Plakar's chunker (the default
  of jsync): the 64-bit gear hash is shifted by one per byte, so 64 bytes later nothing is left of the earlier hash; induction over the
  loop. Later cuts after a common one: the list of cuts from a cut on depends on the bytes from there on. FNV-1a hashes the whole chunk, and the
  Rabin-Karp loop multiplies the factor of the byte that leaves once more in every round: for both, files that differ in the first byte
  only and are never cut alike, whatever width of the window is asked for.
* **C137 A waiting request keeps a timer** (`HermesWake`) - the queue of deadlines and the three fields of the timer as a transition system with the
  events request, acknowledgement, deletion, unblocking of reads, timeout. Invariant: a timer that is set is for the front of the queue. The
  other half is false: `setWakeup` compares the front's deadline with the time of the timer that is already set for it and turns the timer off.
* **C138 Order of the deadline queue** (`HermesWake`) - the two comparison functions; laws of a total order, or their negation, and what a search in a
  binary tree of any shape then does. The red-black tree itself is an external package.
* **C139 Host identifier** (`HostCID`) - the file and one start as a function of it; interrupted starts as states of the file. Disagreements
  are expected: the first start returns the identifier with a newline.
* **C140 Looking for the leader** (`FindLeader`) - the two loops over the answers as folds over lists (their order is a Go map's, so arbitrary), the
  choice at the end and the deferred correction. Disagreements are expected: the choice of the highest term is made and not used.
* **C141 Copies and merges** (`KVMerge`) - on top of the radix tree's model (C36): iterate over one tree, insert into another. By induction
  over the keys, with the refinement of the tree to a map. The tree's trouble with keys that extend each other by a zero byte remains.
* **C142 Watchdog** (`Watchdog`) - the goroutine of one circuit as a transition system: hearing from the peer, requests, rounds of the loop,
  ticks, with a list of the tries made. Invariants over all event lists. The variable that the tick looks at is never set, so the first part
  is refuted for all runs.
* **C143 Rolling hashes** (`Rolling`) - the hashes as folds over 64 and 32 bit words; Rabin-Karp and Gear are both polynomials in the bytes, by
  induction the oldest byte is taken away exactly (Rabin-Karp) or shifted out after 64 bytes (Gear). Buzhash's table is all zeros, and `Skip`
  divides where it should sum: refuted. The chunker's block length by an invariant.
* **C144 Metadata** (`UserMeta`) - the metadata after any changes equal what the latest change to each key
  says (induction over the changes); the arguments sent are the fragment's, overridden by them. Own
  arguments only where no metadata has the key: a counterexample otherwise. The map's order of iteration
  is that of a list, any.
* **C145 Limits** (`SvcLimit`) - induction over the list of names and over the updates. The preparation in
  tubecmd.go appends where it should update (a name listed with 0 stays so), but the check after it updates.
* **C146 Received files** (`ToDisk`) - both writers as state machines over messages; each write meets a
  disk with any room left. Invariant: the temporary file has the bytes of the parts so far; the path
  changes only with the last part. The writer in jsync drops the error of the last flush and does not
  check the order of parts: counterexamples for every content.
* **C147 Checked configurations** (`ProdCfg`) - defaults, the production check and `insaneConfig` as functions of the
  durations as integers that wrap at 64 bits; the check decided outright (if and only if). Bridges: to `Lease.canServe` for
  the panics of local reads, to `SvcLimit.check` for the limit of replicas. Expected to fail: the product with 5 wraps for
  heartbeats of more than 58 years; a lone node's read lease (half the election time less the drift bound) may come out at
  5 ms or less and panic.
* **C148 Answers describe the key** (`KV`, Props/KVReport) - the model of C29-C32 as it is; case analysis of reads, writes and
  compare-and-swaps, then a compare-and-swap after a read or a refusal. Came from two seeded faults that no theorem noticed
  (a read that reports the epoch as the version, a refusal that reports the writer's own value).

## Raft transition system (C18-C20)

Nodes are identified by name (the PeerID of the code is name plus an incarnation id). Each node has a durable part (log, term, vote as last saved) and a volatile part (term, vote, role, commit index, match positions, votes received). The network is the monotone set of all messages ever sent: any of them may be delivered at any time any number of times, which covers loss, duplication, delay and reordering. Steps: election timeout, vote request handling, vote tally, client command at leader, append-entries send (any begin index, any batch length), append-entries handling, ack handling, step down, crash/restart. Each event-loop iteration is atomic. Membership is fixed; log compaction and snapshots are outside this transition system.

## What is modelled, and what is not

| Lean module | Code in /repo | Left out |
|---|---|---|
| Model/Wire | common.go framing, magic7.go, compress.go | msgpack bodies (opaque bytes), deadlines, lz4/zstd internals |
| Model/Crypt | chacha.go encoder and decoder, nonces | the ciphers (AEAD is a parameter) |
| Model/Handshake, HandshakeSym, X25519 | symmetric.go: the verified and the plain handshake, their framing, key clamping and validity checks; setupPSK of cli.go, serveConn of srv.go and the loops as far as they choose the key | HKDF, ed25519, x509 and HMAC (parameters; symbolic in HandshakeSym), the unused simpleSymmetric handshakes, deadlines |
| Model/HostKey | hostkey.go, the accept loops of srv.go and quic_server.go as far as refused clients matter | base58 (a parameter), errors of the file system, the rest of the accept loops |
| Model/SendLock | srv.go/cli.go writers and their mutexes | everything but the order of writes |
| Model/Rpc, NetRpc, Upload, Stream | cli.go and srv.go: sequence numbers, waiting tables, read loops, net/rpc bridge, uploads, downloads, cancellation | timeouts other than as events, peer circuits, QUIC/TLS transport, http |
| Model/Frag, PeerURL | ckt.go fragments, conversion, comparison, URLs | circuits' goroutines |
| Model/Limit | limitlsn.go | |
| Model/HLC, RLE, Span, Pong, Imap, Membership | tube/hlc.go, rle.go, span.go, pongpq.go, imap.go, membership parts of tube.go | red-black tree library (sorted list) |
| Model/Omap | omap.go, tube/omap.go, dmap.go | red-black tree library (sorted list) |
| Model/WAL, Persistor, MsgBin | tube/wal.go, par.go, persistor.go, msgbin.go | directory sync, byte layout of tickets |
| Model/Raft, RaftRepair, Apply, Snapshot, Session | tube/tube.go: elections, votes, pre-votes, append entries, acknowledgements, commit, apply, snapshots, sessions | compaction inside the transition system, circuits and timers (any order of events) |
| Model/Reconfig | the same, with the membership part of the state: changeMembership, mongoLeaderCanReconfig, quorumsOverlap, setMC, `cktPlus.seen`, pre-votes | force flag, non-voting (shadow) replicas, snapshots for joining nodes, compaction |
| Model/KV | tube/actions.go and the apply switch of tube.go | admin.go, watchdog.go (czar.go: Model/Czar) |
| Model/Hermes | tube/hermes/hermes.go | read-modify-writes, leases, membership service |
| Model/Art, ArtNode | tube/art: insert, remove, searches, iterator, order statistics, node types | bulk.go, saver.go other than its hooks, locks, `pren` caching |
| Model/CDC | jcdc: plakar, stadia, fnv1a, rabin-karp, restic, ultracdc; the chunking readers of jsync/rsync.go | |
| Model/Parallel | jsync/parallel.go: ChunkFile2, LongestZeroSpan of bytes/zero.go | `FilePrecis`, detection of sparse files, scheduling other than departing workers |
| Model/Sync | jsync/rsync.go, taker.go, giver.go | directories (dirscan, dirgiver, dirtaker), file modes and times |
| Model/CAS | jsync/cas.go | |
| Model/Numeric | jsync/sparsified/align.go, jcdc/padme.go | system calls |
| Model/Simnet | simnet.go, simnet_repair.go: queues, sends, reads, the matching pass, faults, repairs, isolation, shutdown, power, close | timers, the event queue in front of the handlers and its batches (any order of operations), logical clocks, snapshots, statistics; probabilities are fractions |
| Model/Simconn | simnet_server.go: Read, Write of simconn | halting, blocking on the mutex |
| Model/Lease | tube.go: `leaderCanServeReadsLocally`, `haveStickyLeader`, the time stamps and timers in `handleAppendEntries`, `handleAppendEntriesAck`, `newAEtoPeer`, `bcastAppendEntries`, `becomeFollower`, `tallyPreVote`, the two election timers, over the steps of Model/Raft | the pre-vote exchange (may be won at any time); `leaderServedLocalRead` beyond the decision; membership changes; leadership transfer (never set by the code). One pass of the event loop is one instant, except for the broadcast |
| Model/Czar | tube/czar.go: `start` (all four states of the loop), handlePing, setVers, expireSilentNodes, Clone, hashPeerIDs, version comparisons; the czar key is the store of Model/KV (`doCAS`, with leases), stamped by nodes with their own clocks | `slow` mode (sessions, members table), bytes of the list (C66), waiting times and retries (any order of events), inspectOnly pings, halting, digests (replaced by what is digested) |
| Model/DirSync | jsync/dirtaker.go: DirTaker, takeOneFile, dirTakerRequestIndivFiles; dirgiver.go and dirscan.go `ScanDirTreeOnePass`, walk.go `OneWalkForAll`, `ParallelWalk`; the ends of a transfer in taker.go; fileutil_unix.go `updateLinkModTime`; the kernel's path walk, os.MkdirAll, Chmod, Remove, RemoveAll, Symlink | the transfer of one file (Model/Sync), temporary directories (off in the code), owners, devices, hard links, permissions denied, times of directories, roots with a trailing slash, a giver that changes meanwhile |
| Model/RaftCompact | tube/tube.go: handleAppendEntries, logsAreMismatched, getStateSnapshot, applyNewStateSnapshot, sendAppendEntriesTo on a compacted log; wal.go: Compact, overwriteEntries, installedSnapshot, loading at start; rle.go: Extends, CompactNewBeg, Truncate | when compaction runs and when a leader sends a snapshot (any moment here); the fragments of a snapshot (Model/Snapshot); the log files' bytes (Model/WAL); changes of membership; the node's state after a panic other than a restart |
| Model/Pump | pump.go: peerbackPump with cleanupCkt and its deferred functions, TellRemoteWeShutdown; ckt.go: newCircuit's hand-over to the pump and its Remotes key, Circuit.Close, OpenCircuitCount, channel capacities; srv.go: the delivery to ReadsIn and ErrorsIn by ToPeerID | durations (an armed timer may fire at any time); the sending of messages and its failures; the acknowledgement of a new circuit beyond its Remotes.Set; the user's service function; several peers on one connection other than as `arrive` being possible or not |
| Model/FragPool | ckt.go: newFragment, freeFragment, LocalPeer.NewFragment and FreeFragment, SendOneWay's filling in of the fragment, its freeing and its returns | the mutex; garbage collection; the sending itself (Model/Frag gives the message, the outcome is a parameter) |
| Model/PeerSvc | ckt.go: RegisterPeerServiceFunc, StartLocalPeer, unlockedStartLocalPeer, bootstrapCircuit's choice and limit check, the requests StartRemotePeer and (ckt2.go) implRemotePeerAndGetCircuit send; cli.go: GetLimitMax | several service names; the circuit made for the request and its delivery; acknowledgements and rejections as messages; what a recovered panic leaves behind on a client |
| Model/Ticket | tube/tube.go: the life of a request that goes through the log: redirectToLeader, replicateTicket, resubmitStalledTickets, replicateBatch, clearBatchToSubmit, commitWhatWeCan's answers, FinishTicket, respondToClientTicketApplied, ifLostTicketTellClient, becomeLeader, becomeFollower, tellClientsImNotLeader, the handlers of RedirectTicketToLeaderMsg, LeaderToClientTicketAppliedMsg and TellClientSteppedDown; imap.go | sessions, local reads, membership changes, values; Raft below (who is elected, what a follower's log takes over from what leaders logged, how far a node commits: any, as long as applied entries stay); duplicated messages; when a batch is submitted (any moment) |
| Model/Sparse | jsync/sparsified/sparse.go: SparseFileSize, FindSparseRegions, CopySparseFile, SparseDiff; sparse_linux.go: Fallocate | block size (a hole may begin anywhere), errors of system calls other than ENXIO, files that change meanwhile, the disk usage of a new copy, SparseSpans' helpers, MinSparseHoleSize and the test-file writers |
| Model/MemWAL | tube/memwal.go; wal.go: overwriteEntries, Compact, installedSnapshot, GetEntry, GetAllEntriesFrom with nodisk | the parlog's records (their number only), onOverwriteNotifyMe, clone (it leaves out the term index; used by tests) |
| Model/Rand | mathrand.go, rand.go (and tube/, jsync/ copies): the NonNeg, Positive, Int64, Bool, Range and RangePosOrNeg functions; simnet_api.go: rngHop; tube.go: electionTimeoutDur, minElectionTimeoutDur, maxElectionTimeoutDur | the sources of bytes (crypto/rand, BLAKE3, ChaCha8: a list of words), their errors, reseeding; float64 is any monotone rounding exact on the integers to 2^53 |
| Model/RandLock | mathrand.go: all methods of PRNG; tube/mathrand.go: all methods of prng: their mutex calls | the values drawn (Model/Rand), panics while the mutex is held (deferred Unlock releases it) |
| Model/PreVote | tube/tube.go: the electionTimeoutCh and preVoteOkLeaderElecTimeoutCh cases of the event loop, beginPreVote, handleRequestPreVote (in Model/Raft), tallyPreVote, resetPreVoteState and its callers | deadlines (flags), shadow replicas, nodes without a configuration, testBeginElection, snapshots (as Model/Raft) |
| Model/Prune | tube/tube.go handleNewCircuit and addToCktall (tables), cleanupGoneCktP, globalPruneCktCheck, pruneDown, deleteFromCktAll, handlePruneRedundantCircuit, peerLeftCh | one pair of peers; watchdogs, tables by name, cktReplica, send errors (a request may just never arrive) |
| Model/EventQ | pq.go (the six comparisons; add, pop, peek, del), simnet.go: mop.tm, priority, whence, bestName, setPseudorandom, add2meq, distributeMEQ (order of a slice), releaseReady; simnet_api.go: chompAnyUniqSuffix | The red-black tree (a list in the order of the comparison), the handlers, armTimer but for its panic, changes of events inside a queue |
| Model/SessTable | tube.go: updateSessTableByClientName, refreshSession, applyNewSess, applyEndSess, garbageCollectOldSessions, the session part of commitWhatWeCan, leaderServedLocalRead and leaderDoneEarlyOnSessionStuff, sessions in snapshots and at restart; sess.go | The answers kept per session (Session), the red-black tree (a list in its order), the hybrid clock (its time only), the least duration of 10 seconds |
| Model/ReqChunks | jsync/giver.go: packAndSendChunksLimitedSize, getMoreChunks; service.go Start and dirtaker.go (the split at K) | Encoding (Msgsize is a number per chunk), progress, what the giver does with the list (Model/Sync) |
| Model/CDCNew | jcdc/rabin.go 46-100 (window size, multiplier, mask computed from the target size), fnv1a.go 114 (mask) | `modinv` and `invm` (never used); the floating point computation of the number of zero bits (fnv1a.go:26) |
| Model/HermesWake | tube/hermes/hermes.go: setWakeup, deleteTicket, actionAbRecordPending, unblockReadsFor, checkCoordOrFollowerFailed (queue and timer only); tube/hermes/pqtree.go: newPqTime; tube/ticketpq.go: newTicketPQ | what handlers do to values and messages (arbitrary operations on the queue); the red-black tree's colours and deletion (external package); order among equal deadlines in the timer part |
| Model/HostCID | config.go: createHostCID_onDisk | errors of the file system other than a missing file; characters outside ASCII |
| Model/KVMerge | tube/kv.go: ArtTable.clone, KVStore.Merge, KVStore.clone | sharing of memory; nil stores; a nil value becomes an empty one in a copy; the hooks for saving (C66) |
| Model/FindLeader | tube/helper.go: HelperFindLeader | network, time limits, circuits; which nodes are asked in the second loop (any list); the list of inspections; a panic when the own name and the configured one differ |
| Model/Watchdog | tube/watchdog.go: startWatchdog, reconnect, the times of seen and seenIndirect; tube/tube.go: backgroundConnectToPeer | one circuit; stopping the goroutine, the ticker's period; the branch for refused connections (disabled by a constant) |
| Model/Rolling | jcdc/rolling.go (all but the FNV hash, see Model/CDC); jcdc/chunker.go: IsBlock, AddBlock | the floating point computations of the chunker (its probability is any number), its table of blocks |
| Model/UserMeta | ckt.go: addUserMeta and its calls in SendOneWay and newCircuit, SetUserArg, GetUserArg; tube/tube.go: leaderWasUpdated, updateLeaderNameFromAckMsg and the other places that set the known leader | the calls in bootstrapCircuit, replyHelper and ckt2.go (the same function on other arguments); numbers as text |
| Model/SvcLimit | cli.go: GetLimitMax, UpdateLimitMax; tube/tubecmd.go:106-144 and tube/admin.go:512-521, the limit of replicas only | other checks of the configuration |
| Model/ToDisk | example.go: ReceiveFileInParts, WriteOneMsgToFile; jsync/todisk.go: WriteOneMsgToFile; srv.go: the loop of beginReadStream; bufio.Writer's Write and Flush | digest of the whole, cancellation, directories, a rename that fails with the temporary file there |
| Model/ProdCfg | tube/tubecmd.go:125-144, tube/admin.go:418-521 ProdConfigSaneOrPanic, tube/tube.go insaneConfig | Init; the files tried in the directories (whether they can be written is given); ClusterSize; setConfigDefaultsIfZero, which changes only zero durations |
| Model/Greenpack, Schemas, Msgpack, MsgGreen, Hooks | the generated `*_gen.go` files (MarshalMsg, UnmarshalMsg, fieldsNotEmpty), AsGreenpack and MessageFromGreenpack of hdr.go, PreSaveHook and PostLoadHook of tube | EncodeMsg and DecodeMsg (the streaming twins), the msgp library itself (a record of laws, met by Model/Msgpack), capacity of reused slices beyond their length |

Not modelled at all: selfcert, QUIC other than its accept loop, configuration files, progress, cmd.

Assumptions that appear as hypotheses of theorems: compression is lossless; AEAD opens what it sealed; the hash separates the byte strings involved (often only "these two are not a collision"); the keyed hash of Hermes tells replicas apart; the msgp library reads back what it appended and can skip it (C66, C67; met by Model/Msgpack); X25519 with each other's public keys gives both sides the same secret, signatures verify, certificates chain (C69). C71 and C72 are in the symbolic (Dolev-Yao) model: primitives are perfect, and points of the curve have no algebra but that multiplications commute. Assumptions built into a model: loquet.Chan keeps the first value it is closed with (C51); a red-black tree is a sorted list (C34, C35, C38, C39); net/url.Parse as written in Model/PeerURL (C57).

## Known disagreements between code and property

Found while modelling. "Proved" means that a theorem named `..._counterexample` (or a universal theorem) shows it in the model; the rest was seen while reading and is listed for completeness.

* **C02, C05** A frame with an unknown compression tag, or s2 data that does not decompress, panics the reader; lz4 and zstd are accepted by the configuration and panic the sender (proved).
* **C06** A server has two encoders per connection under one key, with independent random start nonces (proved: they can collide).
* **C07** The sender's size check leaves out the overhead that the receiver counts; frames shorter than the tag panic the decoder before authentication; mixed compression settings panic (proved).
* **C10** Truncate sets the term of the discarded part to that of the last kept run (proved).
* **C12** `Extends` misjudges a follower that conflicts with the leader below the leader's compaction point, and a leader shorter than the follower's compaction (proved).
* **C14** After reopening or compaction the table of record positions is off by one or stale, and a later overwrite damages the file (proved). After a snapshot install and restart the base is lost (proved).
* **C15** Each link covers only the previous entry, the first entry is not covered, and a tail dropped at a record boundary is accepted (proved).
* **C16** Every torn append makes the log unopenable (proved for all histories).
* **C20** Different entries can be applied at one index: an acknowledgement of entries the follower did not compare; a node counted twice under two PeerIDs; an acknowledgement from an earlier stint of a leader counted later (each proved by an execution).
* **C21** The leader counts itself though not a member, and counts one node twice (proved).
* **C24** A follower whose log parts from the leader's after a common beginning is refused forever without a snapshot; a follower with surplus entries keeps them (proved).
* **C28** Installing a snapshot replaces the membership unconditionally (proved).
* **C29, C30, C32** Removing or renaming a table ignores leases; auto-delete uses the local clock, also for local reads; re-created keys restart their epochs; scans answered by the leader create a table there; a failed write changes the entry in the leader's log (proved).
* **C31** A holder's own plain write or swap is refused until its lease ends, unless it asks for a longer one (proved).
* **C33** A retry sent to the leader while the first copy is in its log unapplied is applied twice (proved). Seen: leader-local reads refresh session expiry only there.
* **C34, C35** Loops nested in loops over one map leave a wrong cache; deleting the last but one element first, during a cached iteration, skips the last (proved).
* **C36** A key and that key followed by a zero byte collide: keys are lost or insert panics; the exact search for the empty key in a one-key tree finds that key; ranges whose lower bound lies below a prefix common to all keys come out empty (proved).
* **C37** Upward searches below a prefix common to all keys find nothing; a strict search for the only key finds it (proved).
* **C39** Reassigning a positive log index leaves a ghost entry (proved).
* **C41, C42** UltraCDC.Cutpoints panics for short tails; FNV accepts sizes with which it never ends; restic ignores the maximum; UltraCDC is not local when the maximum is below minimum+8; a buffer below the maximum makes the reader loop forever (proved). Seen: Plakar and Stadia ignore maxPoints.
* **C43** A run of more than 4096 zeros without an aligned block panics the taker; unwritten ranges fail the checksum; a preallocated file with a trailing hole is left too short; a chunk too large for one message is retried forever (proved).
* **C45** Appending a blob again after reopening or eviction panics; a verified reopening returns compressed bytes (proved). Seen: concurrent Gets duplicate cache keys; records over 1 MB panic Get.
* **C48** Padme(0) panics (proved).
* **C49, C50** A write completes one acknowledgement early; timeouts complete writes that nobody has heard of, under old timestamps; two values under one timestamp; crashes on release and on early acknowledgements; hash collisions break the order (proved).
* **C51** A push or one-way message that carries an outstanding call's number completes that call (proved).
* **C52** A failed part send leaves a gap that crashes the server; a cancellation before the upload's goroutine starts loses parts; a full channel with a gone reader blocks the connection (proved).
* **C53** A single part flagged last is marked as begin only (proved).
* **C54** A cancellation handled before the call is registered is lost (proved).
* **C56** `cmp > 1` never fires, so the payload comparison is not antisymmetric (proved).
* **C57** '?', '#' and '%' in names lose or shift parts; a name without scheme is taken for a scheme (proved).
* **C59** Server replies and pushes use different mutexes, and an unencrypted message is three writes (proved).
* **C60** Descending prefix scans return at most the prefix itself (proved).
* **C61** The leader's dry run uses a zero time, so an expired lease cannot be taken over by a leased write (proved).
* **C63** Goroutines of the net/rpc bridge share buffers without a lock; after a timeout calls hang or get another's request (proved).
* **C64** Removing the last key given can end an iteration early; a key is given twice in a one-key tree; a change before the first Next skips the start; iterating one key closes the iterator; with the empty key a reverse iteration starts over after a change (proved).
* **C66** Decoding into a struct that was used before keeps a non-nil pointer, with zeroed fields behind it, where the input has nil (proved). Minus zero in a float field comes back as plus zero; empty slices and maps come back nil.
* **C67** A decoder that meets fields it does not know counts them as its own and resets too few missing fields, so that values of an earlier message stay in a reused target (proved; `missingFieldsLeft = maxFields - totalEncodedFields`).
* **C68** A member stored under a name other than its own moves to its own name, replacing who is there; loading a key-value store into one that has tables keeps those; an error with empty text arrives as no error, and an error that was taken back returns at the next transfer because `Errs` is not cleared; trees with keys that differ by a zero byte panic (all proved).
* **C70** The all-zero key is refused, but other points of low order are not; X25519 then fails and the code panics, so that any holder of a certificate (in the plain variant anybody) crashes a server or a client with one message (proved for the 32 bytes 1, 0, 0, ...). A handshake message above 874 bytes (long certificates) panics its sender (proved with C69).
* **C72** Only the ephemeral key is signed. An insider can pass a client's hello on as their own, so that the server reports the wrong peer; a client accepts its own hello as the server's answer; a recorded hello is accepted again (all proved). Keys stay secret all the same (C71).
* **C73** With TCP without TLS both ends skip the handshake, whatever pre-shared key is configured, and encrypt with the all-zero key (proved).
* **C74** Every certificate a peer sends is looked up, though only the first is proved to be its own, so an unknown peer gets past the lockdown by appending a known peer's certificate; an email address with a line break in it spoils the file or adds a key; connections handled at the same time overwrite each other's additions; an empty read-only file does not crash the server as documented (all proved).
* **C75** A connection refused after the TLS handshake is never closed, so that with `ListenerLimit` set as many refused clients block the server for good; one refused client stops a QUIC server (proved).
* **C76** When the file ends less than 2*min bytes (8 KB with the defaults) after a segment boundary, the last but one segment may run out of candidates before its end and does not tell the last where to start. If the last then finds a cut of its own, ChunkFile panics with "bad append!"; if that cut is the end of the file, the list silently lacks the last bytes (both proved, at sizes scaled down by 1024; the hash of the whole file, taken separately, makes the receiver notice).
* **C77** The check before a membership change counts reports of later terms, so that a deposed leader that has not heard of its successor can complete a change that its successor does not know, and two leaders of one term follow; removing the last member and adding another one lets disjoint groups elect leaders (proved).
* **C78** A leader that has been removed counts itself towards commitment; the check before a change only asks that the first entry of the term is committed, so that an entry committed under the old members may be held by no majority of the new (both proved: two nodes apply different entries at one index).
* **C80** The matching loop goes on behind the message it has just delivered, so that at a server with several clients a later message of a client can be read before an earlier one; with varying hop times a single connection reorders (proved).
* **C81** A message that passed the drop decision, was unheard and is put back in flight is delivered over a connection that drops everything (proved).
* **C82** Repair first moves unheard messages to the queue of waiting reads, where redelivery does not look and no pass takes them out (proved).
* **C83** The counters behind the drop rate are not reset when the rate is set: after a million messages without loss, rate 1/2 drops the next million (proved for every number). Seen: shutdown empties the queue of dropped sends although its comment says it is left; `processCrashNotHostCrash` is never set, so that closing a node never sends end-of-stream.
* **C84** A Read that runs into its deadline leaves its request in the network, which swallows the next message; Write cuts what exceeds UserMaxPayload and returns a nil error, against io.Writer (proved).
* **C85** Four ways to a stale local read, each a run that meets all other conditions (proved): an answer from a non-voting replica extends the lease; the broadcast stamps its ping after sending it, so that the lease starts late; a restarted node does not remember when it last heard from its leader; an answer carrying a later term makes a node forget the leader it has just heard.
* **C86** A leader that hears of a later term steps down and votes for another at once, while its promise still runs (proved). The time is the oldest stamp plus the shortest window over possibly different peers, so with unequal minimal election times it can lie in the past.
* **C89** A member that lost its connection, read the czar key (which replaces its digest without a delivery) and pinged the same czar again is delivered the same view twice in a row (proved). This and C95 need the czar to see the member at the same address as before, since a new address makes a new version; so it is with fixed ports and in the simulated network, not with ephemeral ports.
* **C92** If a member pings for the first time, or again after it was removed, at the moment another is to be removed, `handlePing` makes its new list from the old one without either; the caller is missing (proved for all such states). A member on an existing connection panics then ("why aren't we in our own list", proved). `MemberLeaseDur` is set in the czar's list but not copied by `Clone`: every answer states 0 (proved).
* **C93** A new czar starts from the list it was told last: a member that joined or was given a lease since is dropped with its lease running (proved).
* **C94** A member that remembers an epoch other than 0 and the key's is refused the lapsed key by the compare-and-swap on epochs; the answer that would tell it the present epoch is discarded because its lease is over. When all members left are such, no czar is ever elected again (proved for all continuations).
* **C95** A member that learnt of a new czar from the key with the digest equal to the one of the first answer never delivers a view of that czar (proved).
* **C96** The assertion at dirtaker.go:845 is the wrong way round: every request for a file the taker already has with contents panics; the worker recovers, stops the batch, and the sync reports success. So no changed file is ever updated, and new files behind it may be lost (proved for all trees and orders). Files of the same size and second are taken to be the same (proved). A directory in the place of a file stays (proved).
* **C97** Directories without subdirectories never get the giver's bits; new empty files get 0600 with parallel chunking; a change of bits alone is not seen (proved for all trees).
* **C98** DryRun is looked at for deletions only: without anything to delete a dry run is the real one (proved for all trees).
* **C99** Only directories are checked for a leading `..`, so a giver can write anywhere (proved); links at the taker, or sent first, are followed, also with an honest giver (proved).
* **C100** A file with the giver's contents and another time is asked for in every sync (proved).
* **C101, C102** Four ways to lose agreement, each with a run that violates nothing else (proved): (1) a follower compares logs only past the leader's base, so old entries of its own below it count as common and are applied; (2) a delayed snapshot of the same leader removes entries acknowledged since; (3) a node that restarts after installing a snapshot with no entries past it finds an empty log file, takes its log to be empty from index 0 and votes for anyone; (4) the same when the process dies between the removal of the old log and the writing of the snapshot's entries.
* **C104** `logsAreMismatched` on entries that begin below the base compares the entry at the base's index twice, the second time with the first entry past the base; a compacted follower rejects what it would otherwise take (proved).
* **C105** Overwriting everything past the base panics ("why out of sync?"): `overwriteEntries` sets the log's last term to 0, the index keeps CompactTerm (proved, also after a restart). It happens with no compaction at all, because truncating a log sets CompactTerm to the last term kept even at base 0 (proved).
* **C106** While the pump waits with a fragment for a full circuit, three or more closes of other circuits restart its two-second timer until the five-second timer fires, and the fragment is lost although its circuit stays open; and a message for a full ReadsIn is dropped after five seconds (both proved).
* **C107** A Close with a reason is sent as an error message, which the other end delivers on Errors without closing its end (proved for every reason).
* **C108** A circuit from a peer to itself has the same id at both ends; the pump's map has room for one (proved).
* **C109** AutoShutdownWhenNoMoreCircuits: the test for an empty map comes before the removal of the circuit, so it never holds (proved for every run). AutoShutdownWhenNoMorePeers: a circuit opened by address stores its remote under the address, the acknowledgement again under the peer id, and the notice removes only the latter (proved).
* **C110** The delivery of an error has no timeout: one circuit whose user does not read Errors stops all circuits of the peer; and after a peer has shut down its channels stay registered, so that the 101st error message for it blocks the connection's reader (both proved for every continuation).
* **C111** A SendOneWay that fails may or may not have freed its fragment, and the error returned is the same in both cases (halt, cancelled circuit; C111_ambiguous_counterexample). A caller who frees after a failure puts it into the pool twice and two later callers share one fragment (C111_double_free_counterexample); one who sends again sends a blank one (C111_retry_counterexample). Proved for callers who only use fragments that are theirs.
* **C113** SendOneWay fills in the service names and versions only where the fragment has none, so those of the first circuit stay and a second circuit to a service of another name carries the wrong name (C113_counterexample). Circuit, peer ids and peer names are always those of the circuit sent on (C113_identity). Also seen: tube.go 15393 counts the sends left to do for observers but never decrements, so with two or more observers the last send does not recycle the fragment.
* **C112** The limit is broken by a remote that asks for an id in use (the new instance replaces the old one in the table, so any number can run under a limit of 2 or more; C112_same_id_counterexample) and by registering the service again (C112_register_counterexample). Proved for distinct ids: at most n per registration. Requests that panic the host are listed exactly (C112_panics_counterexample); among them are those of the library itself: StartRemotePeer at the limit (its header has nil Args, into which the rejection writes; C112_start_panics_counterexample), a prefer-extant request when two instances run, and one whose instance leaves between the count and the lookup (C112_race_panics_counterexample). A prefer-extant request may be handed to an instance that has returned (C112_extant_counterexample), and StartRemotePeer ignores its preferExtant argument (C112_flag_counterexample).
* **C116** Four ways to forget a request, each for all reachable states (proved): a request that reaches a leader before its first entry has committed waits for a resubmission that skips it (`imap.all` visits only tickets with a LogIndex, `resubmitStalledTickets` wants those without); a leader that steps down drops its unsubmitted batch, and the note it sends makes the receiver only remember a leader; a forward whose sending fails is neither kept nor finished; a refusal that arrives after the sender has been elected finds its ticket gone, for `becomeLeader` takes over from WaitingAtFollow only what has a LogIndex and empties the map. The partial theorems show each step of the normal way.
* **C117** `ifLostTicketTellClient` never tells anyone: the errors it is there for are never an answer (proved for every run), and an overwritten request's call stays waiting (proved by a run). A node that is elected between forwarding a request and applying it applies it without telling its own caller (proved by a run).
* C119: FindSparseRegions reports space reserved beyond the end only for files without a hole (sparse.go:411-434); for a file with a hole it is not reported, however large (`C119_reserved_counterexample`).
* C120: CopySparseFile sets the size of the destination only when the source does not use more disk than its size (sparse.go:850-905); if it does and the file ends in a hole, the copy is too short and no error is returned (`C120_short_counterexample`). A file whose space was reserved with fallocate and whose size was then set with ftruncate is such a file. Copying a file onto itself empties it, without an error (`C120_same_file_counterexample`).
* C122: The last term is set to 0 when all entries over the base are cut off (wal.go:856, memwal.go:166). On disk the next write then panics ("why out of sync? llt"), so the first entry over a snapshot can never be replaced (`C122_disk_stops_over_base_counterexample`, for every history and entry); in memory it can. The memory log keeps the caller's PrevIndex and PrevTerm where the other fills them in (`C122_links_counterexample`). `Truncate` notes the last kept term as CompactTerm although the base does not move; if a later overwrite cuts deeper, AddTerm refuses entries of a lower term that fit what is left (`C122_stale_term_counterexample`).
* C123: asked for one of MaxInt64 choices, the range functions return any of 2^63 numbers, MaxInt64 included, which is not below the bound (`C123_max_counterexample`). In package tube a range of size 0 or below gives 0 instead of a panic. The copies of pseudoRandNonNegInt64 in jsync and jsync/sparsified ("returns r >= 0") return MinInt64 for one word, and pseudoRandPositiveInt64 ("returns r > 0") then MinInt64+1 (`C123_sync_counterexample`).
* C124: PRNG ("It is goroutine safe") deadlocks with itself in Rand15B, PseudoRandNonNegInt64, PseudoRandPositiveInt64, PseudoRandInt64, PseudoRandBool and PseudoRandInt64RangePosOrNeg(MaxInt64): they hold the mutex and call Read, which takes it again. No such call ever returns (`C124_never_returns_counterexample`), and all other users of the generator stop with it (`C124_stops_all_counterexample`). In tube only pseudoRandPositiveInt64 does so. No code in the repository calls them at present.
* C125: the election timeout is at most twice the minimum (what maxElectionTimeoutDur says) only in clusters of up to three (and four at the bound); from five members on the spread is more than the minimum, and some draw exceeds it for every configuration (`C125_large_cluster_counterexample`). A simulated network whose maxHop is minHop plus one nanosecond panics (`C125_hop_counterexample`).
* C126: the pre-vote phase can lock a majority out for ever. A node refuses a pre-vote for a term it has already reached, and says so with its own term in the answer (`FromPeerCurrentTerm`); but `tallyPreVote` never takes that term over, and nothing but an election or a message of a leader raises a node's term. If of the two remaining nodes of three A has the higher term and B the newer log, A is refused for its log and B for its term, without end. Such a state is reached when a leader sends an entry to B, is elected again with the vote of A, and dies (`C126_progress_counterexample`); `C126_no_leader_ever_counterexample` is the general form. Adopting the higher term from a refused pre-vote would mend it: without the phase progress is always possible (`C126_without_prevotes_partial`).
* C128: `globalPruneCktCheck` ends with a loop that closes every circuit in `cktAuditByCID` that is not in `cktall`. As `cktall` holds one circuit per peer, the newest, this closes all older ones at once: also the keeper just named in the prune requests, also between replicas ("we never dedup intra-raft traffic ckts, too risky" holds for the first loop only), and without any age. Two nodes that connect to each other at the same time each know the other's circuit as the newest, so each closes the one the other keeps (`C128_crossing_counterexample`). With one order of arrival, if the newest has the larger id and is 10 to 20 seconds old at the check, it is given up by request and the other by the loop (`C128_window_counterexample`).
* C128: the notice on `peerLeftCh` names the peer, not the circuit; if the peer has connected anew before it is acted on, the new circuit is closed (`C128_reconnect_counterexample`).
* C129: the same closing loop closes circuits without any request (`C129_closing_loop_counterexample`).
* C130: requests that agree in time, kind, names up to a suffix "___", target and source line are ordered by mop.sn, which is given out in the
  order in which goroutines call (pq.go, last line of each comparison). Two such requests of one slice are handled in an order that
  the seed does not determine. `C130_alike_counterexample`.
* C131: SubmitBatch hands a mop of kind BATCH to add2meq; mop.tm has no case for BATCH and panics as soon as the timer is armed or
  another event is compared with it. `C131_batch_counterexample`.
* C132: `SessionTableEntry.Clone` leaves out SessionEndxTm, so sessions that come with a snapshot have ended at time zero: the first request
  in one is refused as timed out (`C132_snapshot_ends_counterexample`). A session of the snapshot that the node knew before is another
  pointer with the same T0; updateSessTableByClientName keeps the old pointer and removes the id from the new table
  (`C132_snapshot_drops_counterexample`). These concern nodes that become leader after taking a snapshot.
* C132: a session created by a leader whose clock is not ahead of the creation time of the client's last session is removed when applied, and
  the client gets its id (`C132_clock_behind_counterexample`). A write logged before a local read and applied after it moves the end back
  (`C132_end_moves_back_counterexample`).
* C133: sessByExpiry is not rebuilt at restart nor from a snapshot, so that sessions not used again are never removed
  (`C133_restart_counterexample`, `C133_snapshot_counterexample`), nor is sessTableByClientName at restart (`C133_two_sessions_counterexample`);
  `continue` for an unknown session skips the clean-up (`C133_unknown_session_counterexample`).
* C134: a request that is too large though it has no more than K = 5000 chunks panics (`C134_few_chunks_counterexample`); this takes very long names or
  hashes. A chunk larger than a message is never sent and the loop does not end (`C134_endless_counterexample`); chunks without contents
  are not that large. When the circuit ends or reports an error between messages, getMoreChunks returns nil and the giver goes on with a part
  of the list (`C134_cut_counterexample`); more is sent than needed, the result is the same.
* C135: contiguity is checked at the last message only and FragPart is never read, so that lost or exchanged messages before that are not
  noticed (`C135_lost_earlier_counterexample`, `C135_exchanged_counterexample`). Circuits do not lose messages by themselves.
* C136: `RabinKarpCDC.Algorithm` (rabin.go:187-201) multiplies `multn`, the factor of the byte that leaves the window, by `mult` in every round, and
  starts with one power too many, so that no byte is ever taken out of the sum: the hash is of the whole chunk (`C136_rabin_counterexample`, for every valid
  configuration). `FNVCDC`, named "fnv1a-rolling", hashes the whole chunk by design (`C136_fnv_counterexample`). UltraCDC does not look at a group
  of eight bytes that equals the one before, and the groups are counted from the chunk's start (`C136_ultra_counterexample`).
* C137: `setWakeup` (tube/hermes/hermes.go:1668) sets a timer only if the front's deadline is after `s.nextWake`, and otherwise turns the timer off. Once a
  timer is set, `s.nextWake` is the front's deadline plus ten microseconds, so the next call turns it off, and the one after sets it again.
  With two requests waiting no timer is set; if their coordinator has failed they wait until something else happens. A timeout whose handler
  calls `unblockReadsFor` ends the same way.
* C138: the comparison in tube/hermes/pqtree.go:77 is `atkt.TicketID < atkt.TicketID`. Two tickets of one key with the same deadline are each
  greater than the other; after a rotation one of them is not found by delete and update, and stays in the queue.
* C139: `createHostCID_onDisk` (config.go:36-41) returns the identifier with its newline on the first start and without on all others, so a sync between
  the first process and a later one is not recognised as one on the same host. The file is created before it is written: a crash or another
  start in between panics, and two first starts at once have two identifiers.
* C141: `KVStore.Merge` loses a key of the first store when the second has keys that are it, a zero byte and more (`C141_merge_counterexample`; the cause is the tree's, as in C36). Neither store need have such a pair by itself.
* C140: when several nodes take themselves for the leader, `HelperFindLeader` reduces its map `leaders` to the one of the highest term (tube/helper.go:311-330), but returns `lastLeaderName`, the one asked last, which the reduction does not touch (`C140_order_counterexample`, for all terms). With `requireOnlyContact` the process exits or not by the same order (`C140_exit_counterexample`).
* C140: what a node that is not configured says of another is believed (tube/helper.go:297-308), although the first loop accepts only what nodes say of themselves (`C140_hearsay_counterexample`).
* C142: the watchdog's tick looks at the variable `pack` (tube/watchdog.go:210, 295), which is declared and never set, so the tick always does nothing: a silent peer is never reconnected and counts as up forever (`C142_silent_counterexample`, for all runs). What was meant is probably `pack = req` after a request.
* C142: a request with an empty or pending address sets the peer to down without a try, even if it was just heard from (`C142_no_address_counterexample`, tube/watchdog.go:260-261, 370-400).
* Seen in watchdog.go: `refused` looks for "context cancelled", but Go's error says "context canceled"; and circuits are never removed from `parked`, as `atomicConnRefused` is only set under a constant that is false (tube/watchdog.go:12, 268, 332).
* C143: `GearHash` keeps a window that its hash does not use: the hash is that of the last 64 bytes whatever the window (`C143_gear_window_counterexample`). `Buzhash`'s table is never filled, so it gives 0 for every stream (`C143_buzhash_counterexample`); with a table, until the window is full it is that of the last byte alone. `RollingHash.Skip` divides modulo 2^32 where it should sum a geometric series: wrong for every seed already for two steps (`C143_skip_counterexample`).
* C144: metadata override the caller's own arguments of the same key (`C144_own_args_counterexample`; tube's own fragments set "leaderID", "leaderName" and "leaderURL", which leaderWasUpdated also puts there). A single key that begins with '#', which nothing keeps from being set, makes every later send panic (`C144_reserved`). A client that takes over a newer leader from an inspection does not call leaderWasUpdated, and an acknowledgement only if it has a term: its metadata go on naming the old leader (`C144_leader_counterexample`).
* C145: tubecmd.go appends a second entry where the service is listed with 0; no effect by itself (`C145_prepare_counterexample`), the later check makes up for it.
* C146: `FileToDiskState.WriteOneMsgToFile` in jsync/todisk.go drops the error of the last `Flush` and of `Close`, then renames: on a full disk success is reported and the path gets a file cut short (`C146_flush_counterexample`). It does not notice a missing part (`C146_order_counterexample`). The receiver in example.go does neither.
* C147: the check accepts configurations with which a lone node panics at every local read, since it asks for an election time above twice the drift bound where the read asks for 5 ms more, e.g. 1.2 s and 599 ms (`C147_lone_read_counterexample`; `C147_lone_read` is the exact condition). `HeartbeatDur*5` wraps: a heartbeat of 63 years is accepted (`C147_wrap_counterexample`). In a cluster the read lease is shortened by two heartbeats instead of the drift bound; with the defaults these are 400 ms and 500 ms (`C147_drift_counterexample`), so the condition of C85 (two heartbeats cover the drift) is not one that the check or the defaults provide. No stale read is claimed here: pre-votes, left out of the lease model, are refused for the drift bound longer.
* Seen in wal.go: `installedSnapshot` keeps the offsets of the old log's entries in memory (`begseekpos`), so an overwrite after it seeks to a place that belongs to the removed file.
* Seen in czar.go: a would-be czar whose write took effect but whose answer was lost panics when it tries again ("why am I czar on failed write?"), as does one restarted under its name within its lease; a first bidder whose refusal arrives after the lease it reports panics for want of the czar's details; both are the event `dead` of the model.
* Seen, not tied to a property: `Atfar` on an empty tree leaves its lock held; the tree's caches are written under a read lock; a received clock stamp of max-int64 wraps the clock (proved with C08). In directory sync: a directory that is read-only at the giver gets its bits before files are made in it, so that they cannot be (except by root); a taker root with a trailing slash cuts a character off every name in the catalogue; a one-character name at the top of a giver root `.` panics; a top-level directory whose name starts with two dots fails the sync; DirTaker returns no error when its check for single files halts during the listing.

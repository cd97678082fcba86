{"id": "C01", "title": "Framed messages survive any TCP segmentation", "statement": "If one side of an unencrypted connection sends messages m1..mn (each within the size limit), then however the transport cuts the byte stream into reads, the receiver's successive message reads return exactly m1..mn, in order, with the compression tag each was sent with, and leave the stream positioned at its end.", "quantifier": "every list of messages, every compression tag the sender can choose, every way of splitting the byte stream into non-empty reads", "why_tests_cant": "The set of segmentations is exponential in the stream length and the message list is unbounded; tests only see what the local kernel happens to deliver.", "anchors": ["common.go: workspace.readMessage, workspace.sendMessage, readFull, writeFull"]}
{"id": "C02", "title": "A reader never yields a message from a bad or truncated frame", "statement": "For every incoming byte stream, a message read returns a message only if the stream starts with a valid 8-byte magic, an 8-byte big-endian length not above the maximum and at least that many body bytes; otherwise it returns an error, and it never consumes bytes beyond the frame it accepted.", "quantifier": "every byte stream (including hostile ones) and every segmentation of it", "why_tests_cant": "Adversarial streams cannot be enumerated.", "anchors": ["common.go: workspace.readMessage, readFull, ErrMagicWrong, ErrTooLong", "magic7.go: decodeMagic7"]}
{"id": "C03", "title": "Exact-length read and write helpers", "statement": "The exact-read helper reports success if and only if the requested number of bytes was obtained, and then the buffer holds precisely the next bytes of the stream in order; the exact-write helper that reports success has handed precisely the whole buffer to the connection in order.", "quantifier": "every sequence of short reads/writes, including reads that return data together with an error, and every requested length", "why_tests_cant": "Short-read schedules depend on the network and cannot be enumerated.", "anchors": ["common.go: readFull, writeFull"]}
{"id": "C04", "title": "Compression tag is unambiguous", "statement": "Encoding a compression algorithm name to its one-byte wire tag and decoding that byte gives back the same name; every byte that decodes at all re-encodes to itself; unknown names and unknown bytes are reported as errors.", "quantifier": "every algorithm name (arbitrary string) and every byte value", "why_tests_cant": "A finite table but an infinite set of names; round trip must hold in both directions and the error cases must be total.", "anchors": ["magic7.go: encodeMagic7, decodeMagic7"]}
{"id": "C05", "title": "Receiver undoes whatever compression the sender applied", "statement": "For every configuration accepted by the sender, the payload the receiver hands up after decompression equals the payload given to the sender, or the send fails with an error; neither side crashes.", "quantifier": "every payload, every pair of sender/receiver compression settings accepted by the configuration", "why_tests_cant": "Needs the combination of all settings of two machines with all payloads.", "anchors": ["compress.go: handleCompress, handleDecompress", "magic7.go", "common.go: sendMessage (magic7 selection)"]}
{"id": "C06", "title": "No encryption nonce is used twice on a connection", "statement": "On one encrypted connection (one session key), no two frames ever sealed by either side carry the same nonce, for as long as each side sends fewer frames than the nonce counter space reserved for it.", "quantifier": "every pair of random starting nonces, every number of frames sent by each side (below the counter space), every interleaving", "why_tests_cant": "Nonce reuse would need 2^64+ frames or particular starting values to be observed.", "anchors": ["chacha.go: newBlabber (nonce initialisation), incrementNonce, encoder.sendMessage"]}
{"id": "C07", "title": "Encrypted frames round trip within the size limit", "statement": "Every message that the encrypting sender accepts is accepted by the decrypting receiver, which returns the same message body, provided the AEAD opens what it sealed.", "quantifier": "every message body size and compression tag, every nonce", "why_tests_cant": "The boundary sizes and tag combinations are not covered by example tests.", "anchors": ["chacha.go: encoder.sendMessage, decoder.readMessage", "common.go: maxMessage"]}
{"id": "C08", "title": "Hybrid logical clock never goes backwards", "statement": "Successive timestamps taken from one hybrid logical clock (local events, sends, receives, in any mixture and from any number of goroutines) are strictly increasing, and each is at least the physical clock reading it was made from.", "quantifier": "every sequence of clock operations, every sequence of physical clock readings (including ones that jump backwards), every starting value, as long as the int64 range (year 2262) is not exhausted", "why_tests_cant": "Backward clock jumps and concurrent compare-and-swap retries are schedule dependent.", "anchors": ["tube/hlc.go: CreateSendOrLocalEvent, ReceiveMessageWithHLC, CreateAndNow, PhysicalTime48"]}
{"id": "C09", "title": "Happened-before implies smaller timestamp", "statement": "In any distributed execution, if event a happened before event b (same-node order, or a is the send and b the receipt of a message, transitively), the hybrid timestamp of a is strictly smaller than that of b.", "quantifier": "every number of nodes, every execution, every assignment of physical clocks", "why_tests_cant": "Quantifies over all message patterns and clock skews.", "anchors": ["tube/hlc.go: CreateSendOrLocalEvent, ReceiveMessageWithHLC"]}
{"id": "C10", "title": "Compressed term index equals the plain log", "statement": "After any sequence of appends, truncations and compactions, asking the run-length compressed index for the term at an index gives the same answer as keeping the plain list of terms; first/last index and last term agree as well.", "quantifier": "every operation sequence and every queried index", "why_tests_cant": "The compressed representation has many boundary cases (run splits, empty after compaction) reachable only by particular histories.", "anchors": ["tube/rle.go: TermsRLE.AddTerm, Truncate, CompactNewBeg, getTermForIndex, lastIndex, lastTerm"]}
{"id": "C11", "title": "Log comparison finds exactly the common prefix", "statement": "Comparing a leader's and a follower's (uncompacted) term indexes reports the largest index up to which all terms agree, and says the leader extends the follower exactly when the follower's terms are a prefix of the leader's.", "quantifier": "every pair of term sequences", "why_tests_cant": "Pairs of logs cannot be enumerated, and an off-by-one here silently loses or duplicates log entries.", "anchors": ["tube/rle.go: Extends, lcp, getTermIndexStartingAt"]}
{"id": "C12", "title": "Log comparison stays correct under compaction", "statement": "If both logs have discarded a prefix, the comparison never reports a common index at which the two full logs differ; and if it says no snapshot is needed, the reported common index is one both logs still agree on.", "quantifier": "every pair of full term sequences that satisfy log matching, every pair of compaction points", "why_tests_cant": "Combination of two compaction points with all log shapes.", "anchors": ["tube/rle.go: Extends, CompactNewBeg"]}
{"id": "C13", "title": "Write-ahead log holds exactly the entries written", "statement": "After any sequence of successful append, overwrite-suffix and compaction calls, the entry read back at each retained index is the one last written there, indexes are contiguous, and the compressed term index agrees with the entries.", "quantifier": "every sequence of log operations", "why_tests_cant": "Histories are unbounded; boundary cases combine overwrite points with compaction points.", "anchors": ["tube/wal.go: saveRaftLogEntry, overwriteEntries, Compact, GetEntry", "tube/memwal.go"]}
{"id": "C14", "title": "Reopening the write-ahead log gives the same log", "statement": "At any quiescent point, closing and reopening the log file yields exactly the entries that were readable before, for every history of appends, suffix overwrites and earlier reopenings.", "quantifier": "every history of appends, overwrites and reopenings", "why_tests_cant": "The failure needs a particular order of reopen, append and overwrite.", "anchors": ["tube/wal.go: loadPathHelper, saveRaftLogEntryDoFsync, overwriteEntries, begseekpos"]}
{"id": "C15", "title": "Log hash chain detects any change", "statement": "If two log files carry the same chain hash on their last entry then all their entries are the same (assuming the hash function has no collisions), so changing, dropping or reordering any stored entry is detected when loading.", "quantifier": "every pair of entry sequences", "why_tests_cant": "Tamper patterns cannot be enumerated.", "anchors": ["tube/wal.go: lastEntryBytes, saveRaftLogEntryDoFsync, loadPathHelper"]}
{"id": "C16", "title": "A crash never makes the log unopenable", "statement": "If the process or machine stops at any point while appending to the log (losing any suffix of not yet synced bytes), the log can be opened again and holds every entry whose append had returned.", "quantifier": "every append history and every crash point between or within individual file writes", "why_tests_cant": "Crash points inside a write sequence cannot be hit systematically by unit tests.", "anchors": ["tube/wal.go: saveRaftLogEntryDoFsync, loadPathHelper", "tube/par.go: parLog.append1, newParLog"]}
{"id": "C17", "title": "State save is atomic", "statement": "If the process stops at any point during a save of the persistent state, a later load returns either the complete previous state or the complete new one, never a mixture, and after the save has returned it is the new one.", "quantifier": "every sequence of saves and every crash point", "why_tests_cant": "Same: crash points.", "anchors": ["tube/persistor.go: save, load"]}
{"id": "C18", "title": "At most one leader per term", "statement": "In any execution of a cluster with fixed membership, no two different nodes are leader in the same term.", "quantifier": "every cluster size, every execution: message loss, duplication, reordering and delay, timeouts at any moment, crashes and restarts between event-loop steps", "why_tests_cant": "Schedules of a distributed system are unbounded.", "anchors": ["tube/tube.go: handleRequestVote, tallyVote, beginElection, becomeLeader, quorum"]}
{"id": "C19", "title": "Log matching", "statement": "In any execution, if two nodes' logs contain an entry with the same index and term, then the logs are identical up to and including that index.", "quantifier": "every cluster size and every execution (loss, duplication, reordering, crashes and restarts)", "why_tests_cant": "Schedules are unbounded.", "anchors": ["tube/tube.go: handleAppendEntries, logsAreMismatched, becomeLeader, replicateTicket", "tube/rle.go: Extends"]}
{"id": "C20", "title": "Committed entries are never lost or changed", "statement": "In any execution, once a node has applied an entry at some index, no node ever applies a different entry at that index.", "quantifier": "every cluster size and every execution (loss, duplication, reordering, crashes and restarts)", "why_tests_cant": "Violations need specific multi-node schedules.", "anchors": ["tube/tube.go: handleAppendEntries, handleAppendEntriesAck, leaderAdvanceCommitIndex, commitWhatWeCan, beginElection"]}
{"id": "C21", "title": "Leader only commits what a quorum stores", "statement": "Whenever a leader advances its commit index, the new index holds an entry of its current term and the recorded match positions of a majority of the members (counting the leader) are at or above it; the commit index never decreases and never passes the end of its log.", "quantifier": "every set of recorded match positions, every log, every membership", "why_tests_cant": "The rank computation must be right for every vector of positions.", "anchors": ["tube/tube.go: leaderAdvanceCommitIndex, quorum"]}
{"id": "C22", "title": "A granted vote is never given twice in a term", "statement": "Across crashes and restarts, a node never sends granted votes for two different candidates in the same term, and never grants a vote to a candidate whose log is behind its own.", "quantifier": "every sequence of received messages, timeouts, crashes and restarts of one node", "why_tests_cant": "Depends on crash points relative to durable saves.", "anchors": ["tube/tube.go: handleRequestVote, logUpToDateAsOurs, becomeFollower", "tube/persistor.go"]}
{"id": "C23", "title": "Asking for pre-votes disturbs nobody", "statement": "Handling a pre-vote request changes neither the term, nor the vote, nor the log, nor the role of any node, and a pre-vote is granted only to candidates that could also receive a real vote.", "quantifier": "every node state and every pre-vote request", "why_tests_cant": "State space is unbounded.", "anchors": ["tube/tube.go: handleRequestPreVote, logUpToDateAsOurs, haveStickyLeader"]}
{"id": "C24", "title": "A diverged follower is repaired", "statement": "If a leader keeps sending its log to a reachable follower whose log conflicts with it, the follower's log eventually becomes equal to the leader's.", "quantifier": "every pair of leader/follower logs", "why_tests_cant": "Which log shapes fail to converge cannot be found by sampling.", "anchors": ["tube/tube.go: handleAppendEntries, logsAreMismatched, handleAppendEntriesAck, sendAppendEntriesTo, leaderSendsHeartbeats"]}
{"id": "C25", "title": "Entries are applied once and in order", "statement": "On each node the sequence of applied entries is exactly its log from the first index up to the commit index, each applied once and in index order, and the applied index never exceeds the commit index nor the log.", "quantifier": "every history of commit-index advances and every log", "why_tests_cant": "Histories are unbounded.", "anchors": ["tube/tube.go: commitWhatWeCan"]}
{"id": "C26", "title": "Snapshot parts reassemble to the snapshot sent", "statement": "However fragments of one or several multi-part snapshot transfers are dropped, duplicated, reordered or interleaved, the receiver installs a snapshot only if its bytes are exactly the bytes of one snapshot that was sent (assuming the checksum has no collisions).", "quantifier": "every set of transfers and every delivery order of their parts", "why_tests_cant": "Delivery orders are factorial in the number of parts.", "anchors": ["tube/tube.go: handleStateSnapshotEnclosed"]}
{"id": "C27", "title": "Reconfiguration keeps quorums overlapping", "statement": "The check made before a membership change accepts exactly those pairs of memberships for which every majority of the old one intersects every majority of the new one.", "quantifier": "every pair of member sets", "why_tests_cant": "All subsets of all memberships.", "anchors": ["tube/tube.go: quorumsOverlap, MemberConfig.majority, mongoLeaderCanReconfig"]}
{"id": "C28", "title": "Membership versions only move forward", "statement": "The order used to decide which membership is newer is a strict total order on (term, version) pairs, and a node that receives configurations in any order and any number of times ends with the newest one it has seen.", "quantifier": "every finite sequence of received configurations", "why_tests_cant": "Delivery orders and duplicates.", "anchors": ["tube/tube.go: MemberConfig.VersionGT, VersionGTE, VersionEqual, setMC"]}
{"id": "C29", "title": "A lease excludes other writers until it ends", "statement": "While a key is leased, no write, compare-and-swap or delete of that key by anyone other than the lease holder, stamped no later than the lease end plus the clock drift bound, changes the key; this holds across any sequence of other operations in between.", "quantifier": "every sequence of log entries applied to the store, every timing", "why_tests_cant": "Operation interleavings and time relations are unbounded.", "anchors": ["tube/actions.go: kvstoreWrite, doDeleteKey, doDeleteTable, doRenameTable", "tube/tube.go: doCAS, validLease"]}
{"id": "C30", "title": "Fencing tokens grow with each change of holder", "statement": "Each time a key's lease passes to a different holder, the lease epoch reported to the new holder is strictly greater than every epoch ever reported to an earlier holder of that key.", "quantifier": "every sequence of operations on the store", "why_tests_cant": "Needs particular histories (deletion or expiry followed by re-creation).", "anchors": ["tube/actions.go: kvstoreWrite, doDeleteKey, KVStoreReadLeaf", "tube/fencing.go", "tube/tube.go: doCAS"]}
{"id": "C31", "title": "Compare-and-swap is atomic and conditional", "statement": "A compare-and-swap reports success if and only if the stored key met the stated condition (old value, version or lease epoch) at that point in the log and no foreign lease blocked it; on success the new value is stored with the version increased by one, on failure the store is unchanged.", "quantifier": "every store content and every compare-and-swap request", "why_tests_cant": "Combination of conditions, lease states and key presence.", "anchors": ["tube/tube.go: doCAS", "tube/actions.go: kvstoreWrite"]}
{"id": "C32", "title": "Replicas that apply the same log hold the same data", "statement": "Two replicas that apply the same sequence of log entries, at whatever local times, end with the same key/value tables and give the same results.", "quantifier": "every log and every pair of local clock behaviours", "why_tests_cant": "Clock behaviours of two machines cannot be enumerated.", "anchors": ["tube/tube.go: commitWhatWeCan", "tube/actions.go: KVStoreReadLeaf, kvstoreRangeScan, kvstorePrefixScan, doDeleteKey, kvstoreWrite"]}
{"id": "C33", "title": "Session requests take effect at most once", "statement": "If a client resubmits a write with the same session id and serial number any number of times, through any leaders, the write is applied to the store at most once and every resubmission that gets an answer gets the original answer.", "quantifier": "every sequence of submissions, commits and leader changes", "why_tests_cant": "Needs retries racing with replication.", "anchors": ["tube/tube.go: leaderDoneEarlyOnSessionStuff, commitWhatWeCan, replicateTicket, cleanupAcked"]}
{"id": "C34", "title": "Ordered map behaves as a map with sorted iteration", "statement": "After any sequence of set, delete and lookups the ordered map answers lookups like a finite map, and iterating visits every key exactly once in ascending order.", "quantifier": "every operation sequence", "why_tests_cant": "Cached-iteration state depends on the whole history.", "anchors": ["omap.go", "tube/omap.go: omap.all, set, delkey, get2, ordercache"]}
{"id": "C35", "title": "Deleting while iterating the ordered map", "statement": "If the loop body deletes the element it is visiting, the iteration still visits every other element present at the start exactly once.", "quantifier": "every map content and every choice of elements deleted by the loop body", "why_tests_cant": "Subsets of positions: exponential.", "anchors": ["omap.go: omap.all", "tube/omap.go", "dmap.go"]}
{"id": "C36", "title": "Radix tree behaves as a sorted map", "statement": "After any sequence of inserts and removes, the adaptive radix tree answers exact lookups like a finite map from byte strings, iterates keys in ascending byte order (descending for the reverse iterator), and a loop over a range visits exactly the keys of the range.", "quantifier": "every sequence of operations, every byte-string keys including prefixes of each other", "why_tests_cant": "Node growth, shrinking and prefix splits make the state space unbounded.", "anchors": ["tube/art/tree.go: Insert, Remove, FindExact, Size", "tube/art/inner.go, leaf.go: insert, del, get", "tube/art/n4.go, n16.go, n48.go, n256.go", "tube/art/iterator.go: Iter, RevIter, Next, Ascend, Descend"]}
{"id": "C37", "title": "Nearest-key searches in the radix tree", "statement": "Searching for the smallest key greater than (or equal to), or the largest key smaller than (or equal to), a given byte string returns exactly that key when one exists and not-found otherwise.", "quantifier": "every set of stored keys and every query key", "why_tests_cant": "Pairs (key set, query) are unbounded.", "anchors": ["tube/art/tree.go: Find, FindGT, FindGTE, FindLT, FindLTE", "tube/art/gte.go: getGTE", "tube/art/lte.go: getLTE", "tube/art/leaf.go: get"]}
{"id": "C38", "title": "Quorum freshness time is the quorum-th newest", "statement": "The leader's record of peer pongs keeps one newest pong per peer, and the reported quorum time is the latest time t such that at least the requested number of peers have been heard from at or after t.", "quantifier": "every sequence of pongs and every requested quorum", "why_tests_cant": "Histories unbounded.", "anchors": ["tube/pongpq.go: pongPQ.add, quorumPongTm"]}
{"id": "C39", "title": "Pending-ticket index stays consistent", "statement": "After any sequence of adds and deletes, the pending ticket map finds a ticket by id exactly when it was added and not since deleted, and iterates pending tickets in log-index order without duplicates.", "quantifier": "every operation sequence, including tickets whose log index is reassigned", "why_tests_cant": "Reassigned indexes need particular histories.", "anchors": ["tube/imap.go: imap.set, del, get2, all, repair"]}
{"id": "C40", "title": "Connection limit is never exceeded", "statement": "A limiting listener with limit n never has more than n accepted and not yet closed connections, and closing a connection any number of times frees exactly one slot.", "quantifier": "every interleaving of accepts, failed accepts, closes and repeated closes", "why_tests_cant": "Interleavings.", "anchors": ["limitlsn.go: tlsLimitListener.Accept, acquire, release, tlsLimitListenerConn.Close"]}
{"id": "C41", "title": "Chunking covers the file exactly", "statement": "For every input the content-defined chunkers return cut points that strictly increase and end at the input length, so the chunks concatenate to the input; each chunk except the last is within the configured minimum and maximum.", "quantifier": "every byte string and every valid configuration, for each chunking algorithm", "why_tests_cant": "All inputs.", "anchors": ["jcdc/fastcdc4.go, fastcdc2.go, ultracdc.go: Cutpoints, Algorithm", "jcdc/fnv1a.go", "jcdc/restic.go"]}
{"id": "C42", "title": "Chunking is local and streamable", "statement": "Where a chunk ends depends only on the bytes from its start up to the maximum chunk size, so chunking a file read piece by piece through a buffer gives the same chunks as chunking it whole.", "quantifier": "every byte string, every buffer size at least the maximum chunk size, every splitting into reads", "why_tests_cant": "All inputs and splits.", "anchors": ["jsync/rsync.go: GetHashesOneByOne, SummarizeBytesInCDCHashes", "jcdc/*: Algorithm"]}
{"id": "C43", "title": "Sync plan reconstructs the goal file", "statement": "Given the goal's chunk list and the local file's chunk index, building the update plan, fetching the missing chunks and applying the plan produces exactly the goal's bytes (assuming the chunk hash has no collisions).", "quantifier": "every pair of files (goal, local) and every chunking of them, including repeated chunks and sparse zero runs", "why_tests_cant": "Pairs of files.", "anchors": ["jsync/rsync.go: GetPlanToUpdateFromGoal, UpdateLocalWithRemoteDiffs"]}
{"id": "C44", "title": "Only missing chunks are transferred", "statement": "The plan asks for the data of a chunk exactly when no chunk with the same content exists locally, and asks for each distinct content at least once and no content that is already there.", "quantifier": "every pair of chunk lists", "why_tests_cant": "Pairs of lists with duplicates.", "anchors": ["jsync/rsync.go: GetPlanToUpdateFromGoal, Diff, getCryMap"]}
{"id": "C45", "title": "Content store returns what was stored", "statement": "After any sequence of appends, reopenings and lookups, the content-addressed store returns for every hash that was appended exactly the appended bytes, and not-found for any other hash.", "quantifier": "every sequence of operations, including cache eviction and reopening", "why_tests_cant": "Histories and evictions.", "anchors": ["jsync/cas.go: CASIndex.Append, Get, NewCASIndex, verifyDataAgainstIndex"]}
{"id": "C46", "title": "Store index records round trip", "statement": "Encoding an index record (hash, compressed and uncompressed length) to its 64-byte form and decoding gives back the same record, records never overlap, and a file holding n records is parsed as exactly those n.", "quantifier": "every record and every list of records", "why_tests_cant": "All records.", "anchors": ["jsync/cas.go: CASIndexEntry marshal/unmarshal"]}
{"id": "C47", "title": "Aligned sparse span stays inside the hole", "statement": "The block-aligned span computed for punching a hole lies inside the requested byte range, is aligned at both ends, and is the largest such span.", "quantifier": "every byte range with non-negative ends", "why_tests_cant": "Arithmetic boundary cases.", "anchors": ["jsync/sparsified/align.go: AlignedSparseSpan"]}
{"id": "C48", "title": "Padding leaks at most log-log bits and is bounded", "statement": "The padded length is never below the true length, exceeds it by at most about 12 percent, and padding is monotone: longer inputs never get shorter padded length.", "quantifier": "every length from 1 on", "why_tests_cant": "All 64-bit lengths.", "anchors": ["jcdc/padme.go: Padme"]}
{"id": "C49", "title": "Replicated register reads see completed writes", "statement": "In the Hermes replicated store, once a write has been acknowledged to its client, every later read served by any live replica returns that value or a newer one.", "quantifier": "every execution: message reordering, delay and concurrent writers", "why_tests_cant": "Schedules unbounded.", "anchors": ["tube/hermes/hermes.go: actionLA, recvInvalidate, recvAck, recvValidate, readReq"]}
{"id": "C50", "title": "Replica timestamps never regress and ties have one winner", "statement": "In the Hermes store, logical timestamps are totally ordered (version, then writer), two different writers never produce the same timestamp, and applying invalidations in any order leaves every replica with the value of the greatest timestamp.", "quantifier": "every set of invalidations and every delivery order at every replica", "why_tests_cant": "Delivery orders.", "anchors": ["tube/hermes/hermes.go: TS.Compare, recvInvalidate, actionI"]}
{"id": "C51", "title": "Each reply completes the call it answers", "statement": "With any number of outstanding calls on one client, whatever order replies arrive in (including late replies after a timeout or cancel, and messages pushed by the server), a call completes at most once, and with the reply to its own request.", "quantifier": "every interleaving of calls, replies, timeouts, cancellations and server pushes", "why_tests_cant": "Interleavings.", "anchors": ["cli.go: runSendLoop, runReadLoop, GetOneRead, UngetOneRead, nextSeqno, SendAndGetReply", "srv.go: processWork, SendMessage"]}
{"id": "C52", "title": "Upload stream delivers every part once, in order", "statement": "The server-side upload handler of one upload call receives part 0, 1, 2, ... of that upload, each once, in the order the client sent them, ending with the part marked last, regardless of other calls on the connection.", "quantifier": "every interleaving of any number of uploads and calls on one connection", "why_tests_cant": "Interleavings.", "anchors": ["cli.go: UploadBegin, UploadMore", "srv.go: handleIncomingMessage, handleUploadParts, registerInFlightCallToCancel, beginReadStream"]}
{"id": "C53", "title": "Download stream marks its first and last part", "statement": "When the server sends a download as parts with the final one flagged last, the client sees parts numbered from 0 without gaps, the first marked as begin and the last marked as end.", "quantifier": "every number of parts (one or more) and every interleaving of senders", "why_tests_cant": "Needs the boundary case of a one-part download and all interleavings.", "anchors": ["srv.go: serverSendDownloadHelper.sendDownloadPart"]}
{"id": "C54", "title": "A cancellation reaches the call it names", "statement": "If a client sends a request and then cancels it, the server cancels the context of that call (if still running), whatever the scheduling of its goroutines.", "quantifier": "every interleaving of the server goroutines handling the request and the cancellation", "why_tests_cant": "Goroutine schedules.", "anchors": ["srv.go: runReadLoop, handleIncomingMessage, processWork, registerInFlightCallToCancel, cancelCallID"]}
{"id": "C55", "title": "Fragment and message conversion loses nothing", "statement": "Sending a fragment over a circuit and converting the received message back gives a fragment with the same addressing, operation, subject, part number, arguments, payload and error; fields left empty by the sender are filled in from the circuit.", "quantifier": "every fragment and every circuit", "why_tests_cant": "All field combinations.", "anchors": ["ckt.go: Fragment.ToMessage, ConvertFragmentToMessage, convertMessageToFragment"]}
{"id": "C56", "title": "Fragment comparison is a total order", "statement": "Comparing fragments is antisymmetric and transitive, and reports equality only for fragments whose compared fields agree.", "quantifier": "every pair and triple of fragments", "why_tests_cant": "All triples.", "anchors": ["ckt.go: Fragment.Compare"]}
{"id": "C57", "title": "Peer address strings parse back", "statement": "The network address, service name, peer id and circuit id put into a peer URL are recovered by parsing it.", "quantifier": "every network address and every service name, peer id and circuit id without a slash", "why_tests_cant": "All strings.", "anchors": ["ckt.go: ParsePeerURL, LocalPeer.URL, Circuit.RemoteCircuitURL"]}
{"id": "C58", "title": "Interval arithmetic of spans", "statement": "For non-empty half-open integer intervals, the overlap, containment and intersection operations agree with set membership: overlap iff some integer lies in both, intersection contains exactly the integers in both.", "quantifier": "every pair of intervals", "why_tests_cant": "All pairs.", "anchors": ["tube/span.go"]}
{"id": "C59", "title": "Concurrent senders on one connection never corrupt the stream", "statement": "When several goroutines send messages on one connection at the same time (replies, pushed messages, keep-alives), the receiver gets every message whole, exactly once, and each sender's messages in the order that sender sent them.", "quantifier": "every number of senders, every list of messages, every interleaving of their writes", "why_tests_cant": "Corruption needs a particular interleaving of several writes on one socket; a test run sees a handful of schedules.", "anchors": ["common.go: workspace.sendMessage (wmut, three writeFull calls)", "chacha.go: encoder.sendMessage (mut, one writeFull call)", "srv.go: runSendLoop, runReadLoop, processWork (two blabbers on one connection)"]}
{"id": "C60", "title": "Range and prefix reads answer exactly the keys asked for", "statement": "A range read of a table answers, in increasing order of keys, exactly the keys within the requested bounds with their current values, and a prefix read exactly the keys that begin with the prefix, whether read in ascending or descending direction; only keys marked for automatic deletion whose lease has run out are left out.", "quantifier": "every store reached by any sequence of operations, every table, bound, prefix and direction", "why_tests_cant": "The claim ranges over all sets of keys and all bounds; boundary keys, keys that are prefixes of each other and the two directions give too many combinations to sample.", "anchors": ["tube/actions.go: kvstoreRangeScan, kvstorePrefixScan, doShowKeys", "tube/tube.go: doReadKeyRange, doReadPrefixRange", "tube/art/iterator.go: inRange, Ascend, Descend"]}
{"id": "C61", "title": "An expired lease can be taken over", "statement": "Once a key's lease has ended by more than the clock drift bound, another client's write that asks for a lease on the key succeeds: the value is stored, the client becomes the holder, and is told a lease epoch greater than the previous one.", "quantifier": "every store, every key with an expired lease, every later time, every requester", "why_tests_cant": "It must hold at every time after the expiry and on every path a request can take through the leader; tests exercise the log path with hand-stamped requests only.", "anchors": ["tube/actions.go: kvstoreWrite, kvstoreWouldWriteLease", "tube/tube.go: commandSpecificLocalActionsThenReplicateTicket, leaderServedLocalRead, prepOne"]}
{"id": "C62", "title": "Reads return the last write", "statement": "A read that finds its key returns the value of the last write or compare-and-swap of that key that was answered as done, where renaming a table carries its keys along; and when no write asks for auto-delete, a read is answered not-found exactly when no such write happened since the key or its table was removed.", "quantifier": "every history of requests applied to an empty store, every clock, every key", "why_tests_cant": "Histories mix writes, refused writes, deletes, leases, scans and table operations without bound.", "anchors": ["tube/tube.go: doReadKey, doCAS, commitWhatWeCan", "tube/actions.go: kvstoreWrite, KVStoreReadLeaf, doDeleteKey, doDeleteTable, doRenameTable"]}
{"id": "C63", "title": "net/rpc style calls return the result of their own arguments", "statement": "A call made through the net/rpc style interface (Client.Call with a registered service method) returns what the method gives for this call's arguments, also when an earlier call on the same connection timed out or was cancelled while the server was still working on it.", "quantifier": "every series of calls, every point at which calls time out, every interleaving of the server's goroutines", "why_tests_cant": "The server's goroutines of one connection share their encoder and decoder buffers; what goes wrong depends on the interleaving.", "anchors": ["srv.go: newConnection setup of encBuf/decBuf, callBridgeNetRpc", "cli.go: Call"]}
{"id": "C64", "title": "Changing the radix tree while iterating over it", "statement": "When a single goroutine inserts into and removes from the tree during an iteration, each call to Next gives the first key after the last one it gave, among the keys the tree holds at that moment and inside the range, with its index; it ends only when there is no such key, and stays ended.", "quantifier": "every tree, every range and direction, every sequence of inserts, removals and calls to Next", "why_tests_cant": "It depends on the shape of the tree at each change and on where the iterator stands; the combinations are unbounded.", "anchors": ["tube/art/iterator.go: Iter, RevIter, Next, init, iterate, tryAdvance, inRange", "tube/art/tree.go: find_unlocked"]}
{"id": "C65", "title": "Places in the order of the radix tree", "statement": "At(i) and Atfar(i) give the key that has exactly i keys before it, and nothing when i is not below the size; LeafIndex and the exact search give the number of keys before the one asked for. This holds after any inserts and removals and any earlier calls to At.", "quantifier": "every sequence of inserts, removals and calls to At, every index and key", "why_tests_cant": "The counts are kept at every inner node through splits, growth and removals, and At goes on from an iterator it has kept from the last call.", "anchors": ["tube/art/tree.go: At, Atfar, at_unlocked, LeafIndex, FindExact", "tube/art/node.go: at, subTreeRedoPren", "tube/art/inner.go: SubN"]}
{"id": "C66", "title": "Encoded values come back", "statement": "A value of any struct that the library sends or stores (headers, messages, fragments, handshake packets, Raft messages, log entries, tickets, state, directory and file descriptions, and the others with generated code), encoded with MarshalMsg and decoded with UnmarshalMsg into a new struct, is equal to the original, whatever bytes follow, and exactly those following bytes are returned. No encoding is a prefix of another value's. For structs without pointers the target may also be one used before. Message.AsGreenpack and MessageFromGreenpack, sent over a framed connection, deliver the sent messages in order.", "quantifier": "every struct with generated code, every value of it (lengths below 2^32, float fields other than minus zero; nil and empty slices or maps are not told apart), every following bytes", "why_tests_cant": "The generated tests encode one zero value per struct. Which fields are left out depends on the value, and the reader fills in the rest: the combinations are 2^n in the number of fields, nested without limit.", "anchors": ["hdr_gen.go: HDR.MarshalMsg, HDR.UnmarshalMsg, fieldsNotEmpty, Message", "ckt_gen.go: Fragment", "tube/tube_gen.go: AppendEntries, Ticket, RaftState, MemberConfig, SessionTableEntry", "jsync/rsync_gen.go", "jsync/dirscan_gen.go", "symmetric_gen.go", "tube/art/leaf_gen.go", "tube/hermes/hermes_gen.go", "hdr.go: AsGreenpack, MessageFromGreenpack, HDRFromGreenpack"]}
{"id": "C67", "title": "Versions with different fields understand each other", "statement": "If writer and reader have different versions of a struct, where fields with the same key have the same type, then decoding into a new struct succeeds: fields known to both have the written value, fields the writer does not know are zero, fields the reader does not know are skipped, and following bytes are untouched. If the reader knows all fields of the writer this also holds for a target without pointers that was used before.", "quantifier": "every pair of field lists with that condition, every value, every following bytes", "why_tests_cant": "The other version does not exist at the time of testing.", "anchors": ["hdr_gen.go: UnmarshalMsgWithCfg, unmarshalMsgFieldOrder, unmarshalMsgFieldSkip", "tube/tube_gen.go"]}
{"id": "C68", "title": "Saved indexes are rebuilt on loading", "statement": "Data that a struct keeps outside its encoded fields survives saving and loading: the membership list (names, order and details), the session table's tickets by serial number and by ticket ID, an external cluster's addresses, the key-value store's tables, the keys and values of each table's tree, and the text of a ticket's error.", "quantifier": "every state of these structures that calls on them can produce, every order in which Go visits a map", "why_tests_cant": "The order of map iteration varies between runs, and the contents are unbounded.", "anchors": ["tube/tube.go: MemberConfig.PreSaveHook, PostLoadHook, SessionTableEntry.PreSaveHook, PostLoadHook, ExternalCluster.PreSaveHook, PostLoadHook, Ticket.PreSaveHook, PostLoadHook", "tube/czar.go: ReliableMembershipList.PreSaveHook, PostLoadHook", "tube/kv.go: KVStore.PreSaveHook, PostLoadHook", "tube/art/saver.go: Tree.PreSaveHook, PostLoadHook"]}
{"id": "C69", "title": "Both ends of a handshake get the same key", "statement": "When a client and a server with a common pre-shared key and certificates from a common authority perform the handshake over a connection that delivers what is written, both succeed with the same session key and the same pair of ephemeral keys, and each reports the long-term public key of the other's certificate.", "quantifier": "all keys, certificates, pre-shared keys and times for which the certificates verify", "why_tests_cant": "tests run a few random keys; the claim is about every pair of keys and every certificate", "anchors": ["symmetric.go: symmetricServerVerifiedHandshake, symmetricClientVerifiedHandshake, symmetricServerHandshake, symmetricClientHandshake, sendLenThenShakeTag, readLenThenShakeTag, deriveSymmetricKeyFromBaseSymmetricAndSharedRandomSecret"]}
{"id": "C70", "title": "No unchecked handshake is accepted, and none crashes the process", "statement": "Whatever bytes arrive, a handshake succeeds only if they hold a message whose certificate verifies against the configured authority at that time and whose ephemeral key is signed by that certificate's key; a server sends nothing before that; an announced length above the limit makes it read and allocate no more; and no input crashes the process.", "quantifier": "all byte strings that can arrive, at clients and servers", "why_tests_cant": "the attacker chooses the bytes; no set of samples covers them", "anchors": ["symmetric.go: symmetricServerVerifiedHandshake, symmetricClientVerifiedHandshake, readLenThenBytesTag, readLenThenShakeTag, isValidX25519PublicKey"]}
{"id": "C71", "title": "Session keys stay secret from the network", "statement": "An attacker who controls the network and holds certificates of their own never learns the key of a session that an honest party set up with another honest party, nor what is sent under it, even if all long-term keys and the pre-shared key leak later; and an attacker who never gets the pre-shared key learns no session key at all, even with a quantum computer.", "quantifier": "all executions of any number of clients, servers and sessions, all attacker strategies", "why_tests_cant": "tests cannot try all attacker strategies and interleavings", "anchors": ["symmetric.go: symmetricServerVerifiedHandshake, symmetricClientVerifiedHandshake"]}
{"id": "C72", "title": "The peer is who the handshake says", "statement": "If a handshake reports a peer whose long-term key has not leaked, that peer really took part with the reported ephemeral key, in the other role, and reports this party as its own peer with the same key; and every application message that decrypts under a session key both honest ends share was sent by one of them.", "quantifier": "all executions of any number of clients, servers and sessions, all attacker strategies", "why_tests_cant": "tests cannot try all attacker strategies and interleavings", "anchors": ["symmetric.go: symmetricServerVerifiedHandshake, symmetricClientVerifiedHandshake"]}
{"id": "C73", "title": "A configured pre-shared key protects the traffic", "statement": "When a pre-shared key is configured, whatever the transport, all application messages of a connection are encrypted with the key from the handshake, which depends on the pre-shared key; if the handshake fails no application message is sent.", "quantifier": "all configurations and transports", "why_tests_cant": "the tests look at the transports one at a time and do not see which key is used", "anchors": ["cli.go: setupPSK, runReadLoop, runSendLoop, checkPreSharedKey", "srv.go: serveConn, runSendLoop, runReadLoop", "quic_server.go: runQUICServer"]}
{"id": "C74", "title": "The list of known keys decides who is accepted", "statement": "If the file of known keys exists and cannot be written, a peer is accepted only if the key it proved to hold is in the file; if it can be written, a new peer's key is added and the peer is accepted ever after, also once the file is made read-only; no connection attempt removes a key, and what was written is what is read back.", "quantifier": "all files, all peers and all sequences of connections", "why_tests_cant": "unbounded sequences of connections and file contents", "anchors": ["hostkey.go: hostKeyVerifies, readknownKeys, known.Add, known.WriteOut"]}
{"id": "C75", "title": "Refusing one client does not keep others out", "statement": "Whatever clients a server has refused before, because their TLS handshake failed, their key is not known, or the handshake with the pre-shared key failed, the next client is still taken, unless as many clients are being served as the configured limit allows.", "quantifier": "all sequences of clients, refused, served and leaving, for TLS with and without a limit and for QUIC", "why_tests_cant": "the tests refuse a client or two and never look at the server afterwards; a leak per refused client shows only after many", "anchors": ["srv.go: runServerMain, handleTLSConnection, serveConn", "quic_server.go: runQUICServer", "limitlsn.go: tlsLimitListenerConn.Close"]}
{"id": "C76", "title": "Parallel chunking covers the file exactly", "statement": "For every file that is neither empty nor sparse, and whatever the number of goroutines and the size of the segments they share, ChunkFile returns a list of chunks that follow one another from the first byte of the file to the last, none empty; each carries the hash of exactly its bytes, or the zero mark exactly when they are all zero; chunks that are not all zero are within the configured sizes (the last may be shorter); and the list does not depend on how many goroutines do the work.", "quantifier": "all file contents, all chunk size settings with 0 < 2*min <= max <= segment, all cut functions that respect these sizes, all numbers of goroutines", "why_tests_cant": "the pieces are cut independently and have to be stitched together; where the stitching goes wrong depends on three independent chains of cut points falling a few kilobytes apart, which random test data never shows", "anchors": ["jsync/parallel.go: ChunkFile, ChunkFile2", "bytes/zero.go: LongestZeroSpan, AllZero"]}
{"id": "C77", "title": "At most one leader per term while members are added and removed", "statement": "In any execution of a cluster whose members are added and removed one at a time through a leader (without the force flag and without state snapshots), no two different processes are ever elected leader in the same term, and two nodes that hold a membership with the same version (term and number) hold the same list of members.", "quantifier": "every initial membership, every execution: any sequence of membership changes requested at any moment, message loss, duplication, reordering and delay, pre-votes and elections at any moment, crashes and restarts between event-loop steps", "why_tests_cant": "the schedules in which a deposed leader changes the membership while its successor is being elected are unbounded and need several elections to interleave with acknowledgements in flight", "anchors": ["tube/tube.go: changeMembership, mongoLeaderCanReconfig, quorumsOverlap, onLeaderIsCurrentMCcommitted, setMC, aeMemberConfigHelper, handleRequestVote, handleRequestPreVote, tallyVote, tallyPreVote, beginElection, beginPreVote, becomeLeader, handleAppendEntriesAck", "tube/watchdog.go: cktPlus.seen"]}
{"id": "C78", "title": "Committed writes survive membership changes", "statement": "In any execution of a cluster whose members are added and removed one at a time through a leader (without the force flag), an entry that a leader has reported committed is never lost: no two nodes ever apply different entries at the same log position.", "quantifier": "every initial membership, every execution with membership changes at any moment, as for C77", "why_tests_cant": "needs a follower to lag behind across two membership changes, or a leader to commit after its own removal, and then a new election at the right moment", "anchors": ["tube/tube.go: changeMembership, mongoLeaderCanReconfig, leaderAdvanceCommitIndex, commitWhatWeCan, handleAppendEntries, handleAppendEntriesAck, handleRequestVote"]}
{"id": "C79", "title": "The simulated network delivers only what was sent, once, and loses nothing silently", "statement": "In any execution of the simulated network, a message returned by a read on a connection was sent earlier by the other end of that connection, to this end, and is returned unaltered and not before it was sent plus the minimum network delay; no message is returned twice and no read returns twice. Every message the network has accepted is at any moment exactly one of: delivered, waiting in flight, held as dropped, held as unheard, or discarded because a node it belonged to was shut down or closed. While no fault, isolation, shutdown or close has been requested nothing is dropped, unheard or discarded, and each scheduling pass that finds a waiting read with an arrived message delivers at least one message.", "quantifier": "every set of nodes and connections, every sequence of sends, reads, scheduling passes, fault injections, repairs, isolations, shutdowns, power-ons and closes in any order, every time assignment, every random stream", "why_tests_cant": "the interleavings of faults and repairs with messages in flight are unbounded, and a message silently duplicated or lost by the simulator shows only as a misbehaving protocol above it", "anchors": ["simnet.go: handleSend, handleRead, dispatchReadsSends, dispatchAll, isolateSimnode, unIsolateSimnode, shutdownSimnode, transferPreArrQ_to_droppedSendQ, handleCloseSimnode", "simnet_repair.go: equilibrateReads, applyFaultsToReadQ, applySendFaults, deliverDroppedSends", "pq.go: newPQarrivalTm, newPQinitTm"]}
{"id": "C80", "title": "Messages on one simulated connection arrive in the order they were sent", "statement": "On a simulated network with a fixed hop time and no faults, the messages that one end of a connection reads are, in order, the messages the other end sent, with none skipped.", "quantifier": "every set of connections, every sequence of sends with increasing times, reads and scheduling passes", "why_tests_cant": "the order depends on which reads and which messages of other connections wait at the same node when a pass runs", "anchors": ["simnet.go: handleSend, handleRead, dispatchReadsSends", "pq.go: newPQarrivalTm, newPQinitTm", "simnet_api.go: rngHop, NewScenarioBaseline"]}
{"id": "C81", "title": "Injected faults hold", "statement": "While a node is isolated or powered off no message is delivered from it or to it. While an end of a connection is fully deaf no read there returns a message from the other end, and while it drops all sends no message it has in flight is delivered.", "quantifier": "every execution of the simulated network, every moment, every pair of nodes", "why_tests_cant": "a message can be in any queue when the fault is injected and can be brought back by a later repair of another connection", "anchors": ["simnet.go: statewiseConnected, localDeafRead, localDropSend, dispatchReadsSends, handleSend, timeWarp_transferDroppedSendQ_to_PreArrQ, timeWarp_transferDeafReadQsends_to_PreArrQ", "simnet_repair.go: injectCircuitFault, applySendFaults, applyFaultsToReadQ"]}
{"id": "C82", "title": "Repair with redelivery brings lost messages back", "statement": "Repairing a node's connections with the option to deliver dropped sends puts every message lost on these connections, whether dropped at the sender or unheard by the reader, back in flight, provided both ends are then powered on and not isolated.", "quantifier": "every reachable state of the simulated network, every node", "why_tests_cant": "depends on which of several queues each lost message lies in when the repair runs and on the order of the repair's parts", "anchors": ["simnet_repair.go: handleCircuitRepair, repairAllCircuitFaults, deliverDroppedSends, equilibrateReads", "simnet.go: transferDeafReadsQ_to_readsQ, timeWarp_transferDroppedSendQ_to_PreArrQ, timeWarp_transferDeafReadQsends_to_PreArrQ"]}
{"id": "C83", "title": "The drop rate of a faulty connection is the requested one", "statement": "If a connection is given drop probability p and it stays so, then of the first k messages that reach the drop decision, p*k rounded up are dropped, for every k; nothing is dropped if p is 0 and everything if p is 1.", "quantifier": "every p, every k", "why_tests_cant": "tests check a few probabilities within a tolerance", "anchors": ["simnet.go: localDropSend, dispatchReadsSends"]}
{"id": "C84", "title": "A simulated connection is a byte stream", "statement": "The bytes returned by successive Read calls on a simulated connection, with buffers of any sizes, are the bytes of the messages delivered to it, in order, none lost, none repeated, also when a Read in between runs into its deadline; Write reports an error whenever it accepts fewer bytes than it was given.", "quantifier": "every sequence of deliveries, every sequence of Read calls with any buffer sizes and deadlines, every Write length", "why_tests_cant": "the split of messages over buffers is unbounded, and a deadline passing between submission of a read and arrival of a message is a race", "anchors": ["simnet_server.go: simconn.Read, simconn.Write, simconn.msgWrite, simconn.SetReadDeadline", "simnet.go: handleRead, dispatchReadsSends"]}
{"id": "C85", "title": "A read answered by the leader alone is never stale", "statement": "When a leader answers a read from its own state without asking the others, no other process has won an election in a later term, and every write that any replica has applied before is in the state the answer comes from, at the same position of the log.", "quantifier": "every execution of every cluster: elections, deliveries in any order, losses, duplicates, partitions, restarts, clocks that run within a bound of each other, pauses; every moment at which the leader serves a read", "why_tests_cant": "staleness needs an election, a partition and clock readings to fall within one lease window; no set of runs covers the interleavings and the clock behaviours", "anchors": ["tube/tube.go: leaderCanServeReadsLocally, leaderServedLocalRead, haveStickyLeader, handleRequestVote, tallyPreVote, beginElection, handleAppendEntries, handleAppendEntriesAck, newAEtoPeer, bcastAppendEntries, becomeFollower"]}
{"id": "C86", "title": "A local read's good-until time is a promise", "statement": "The reply to a local read carries a time; until the serving node's clock reaches it, no other process becomes leader.", "quantifier": "every execution as in C85, every local read, every later moment before the time returned", "why_tests_cant": "the promise is about all continuations of an execution", "anchors": ["tube/tube.go: leaderCanServeReadsLocally (untilTm), leaderServedLocalRead (LeaderLocalReadGoodUntil)"]}
{"id": "C87", "title": "Operations take effect in the order of real time", "statement": "When an operation has taken effect on any replica before another is handed to a leader, and the other takes effect too, then it comes later in the order in which all replicas apply operations. Together with C20 (one order), C25 (each replica follows it) and C85 (local reads see all of it) this is linearizability.", "quantifier": "every execution of every cluster with fixed members: elections, deposed leaders that do not know it, deliveries in any order, losses, duplicates, restarts; every two operations", "why_tests_cant": "a deposed leader has to accept a request at a position that is already filled elsewhere, and the entry must never take effect in any continuation", "anchors": ["tube/tube.go: replicateBatch, handleAppendEntries, handleAppendEntriesAck, leaderAdvanceCommitIndex, commitWhatWeCan, becomeLeader"]}
{"id": "C88", "title": "Nothing takes effect that nobody asked for", "statement": "Every operation applied by any replica was handed by a client to a node that was leader at the time, in the term it carries and at the position it is applied at, or is the entry with which a leader begins its term.", "quantifier": "every execution of every cluster with fixed members, every replica and every operation it applies", "why_tests_cant": "an absence over all executions", "anchors": ["tube/tube.go: replicateBatch, becomeLeader, handleAppendEntries, commitWhatWeCan"]}
{"id": "C89", "title": "A member's view of the group never goes back", "statement": "The membership views that one member delivers to its user on UpcallMembershipChangeCh carry versions (lease epoch of the czar, then counter) that never decrease, and no delivery repeats the one before. The comparison functions of versions agree with each other and with that order.", "quantifier": "every execution of every group: members, czars that change, lost and late answers, any clocks; every member and every two deliveries", "why_tests_cant": "the deliveries come from three places (winning the czar key, serving pings, answers to pings) and interleave with changes of czar", "anchors": ["tube/czar.go: setVers, doUpcall, handlePing, start, VersionCompare, VersionGT, VersionLT, VersionGTE, VersionLTE, VersionEqual"]}
{"id": "C90", "title": "Equal versions mean equal membership", "statement": "Two membership views with the same version, whichever members deliver them or obtain them from a ping, name the same czar and the same members with the same details; only lease times may differ.", "quantifier": "every execution of every group whose members have different names: any number of czars, lapses, retries, answers lost after the write took effect", "why_tests_cant": "the version is counted in the memory of a czar that may lapse and come back, so two of its views could collide only after a particular history", "anchors": ["tube/czar.go: handlePing, setVers, expireSilentNodes, start (unknownCzarState, amCzar)", "tube/tube.go: doCAS"]}
{"id": "C91", "title": "One czar at a time", "statement": "At no moment would two members answer pings as czar, and the epochs of answered pings never decrease in the order of time, if the clocks of members and of the store's leaders agree up to ClockDriftBound.", "quantifier": "every execution of every group, all clocks within the bound, any delays between stamping, applying and answering a write of the czar key", "why_tests_cant": "the overlap would need a particular clock error and a slow answer", "anchors": ["tube/czar.go: handlePing, start", "tube/tube.go: doCAS, validLease", "tube/actions.go: kvstoreWrite"]}
{"id": "C92", "title": "A ping is answered with the caller in the list", "statement": "An answered ping returns a list that has the caller in it, with a lease of the full duration from the time of the ping, and states that duration.", "quantifier": "every state of a czar, every ping, all times", "why_tests_cant": "needs the coincidence of a joining and an expiring member", "anchors": ["tube/czar.go: handlePing, expireSilentNodes, Clone", "tube/czar.go: start (notCzar)"]}
{"id": "C93", "title": "No member is dropped while its lease runs", "statement": "A member to which a czar has given a lease stays in every later membership view, of this czar or the next, until the lease has ended.", "quantifier": "every execution of every group, every lease given", "why_tests_cant": "the loss shows only across a change of czar at the right moment", "anchors": ["tube/czar.go: expireSilentNodes, handlePing, start"]}
{"id": "C94", "title": "A lost czar is replaced", "statement": "When the czar is gone and its lease is over, a remaining member that tries to become czar succeeds.", "quantifier": "every reachable state of every group whose czar is gone; every later attempt", "why_tests_cant": "the failure is permanent: an absence over all continuations", "anchors": ["tube/czar.go: start (unknownCzarState), setVers", "tube/tube.go: doCAS"]}
{"id": "C95", "title": "A member is told the view it is in", "statement": "When a member has accepted the czar's answer to a ping, the view it was answered with has been delivered to its user.", "quantifier": "every execution, every member, every accepted answer", "why_tests_cant": "depends on what the member read from the czar key before", "anchors": ["tube/czar.go: setVers, setVersNoUpcall, hashPeerIDs, start"]}
{"id": "C96", "title": "A directory sync copies the tree", "statement": "When a directory sync reports success, the taker's directory holds exactly the paths of the giver's directory: each with the same kind (directory, regular file, symbolic link), each file with the same contents, each link with the same target, and nothing else.", "quantifier": "every giver directory, every state of the taker's directory before, every order in which the workers handle the files", "why_tests_cant": "the trees, their differences and the orders of the workers are unbounded; the tests sync into an empty directory", "anchors": ["jsync/dirtaker.go: DirTaker, takeOneFile, dirTakerRequestIndivFiles", "jsync/dirscan.go: ScanDirTreeOnePass", "jsync/walk.go: OneWalkForAll, ParallelWalk", "jsync/parallel.go: ChunkFile2"]}
{"id": "C97", "title": "A directory sync copies permissions and times", "statement": "When a directory sync reports success, every directory and regular file at the taker has the giver's permission bits, and every regular file the giver's modification time.", "quantifier": "every giver directory, every state of the taker's directory before, every order in which the workers handle the files", "why_tests_cant": "unbounded trees; the failing cases are not in the tests", "anchors": ["jsync/dirtaker.go: DirTaker, takeOneFile", "jsync/taker.go: Taker (OpRsync_SenderPlanEnclosed, OpRsync_HeavyDiffChunksLast)", "jsync/rsync.go: SummarizeBytesInCDCHashes"]}
{"id": "C98", "title": "A dry run changes nothing", "statement": "A directory sync asked for as a dry run leaves the taker's file system as it was.", "quantifier": "every giver directory, every state of the taker's file system, every order of the workers", "why_tests_cant": "an absence of effects over all trees", "anchors": ["jsync/dirtaker.go: DirTaker (DryRun), takeOneFile, dirTakerRequestIndivFiles", "cmd/jcp/jcp.go: -dry"]}
{"id": "C99", "title": "A directory sync stays in its directory", "statement": "Whatever listing and contents the giver sends, a directory sync changes no path outside the taker's target directory.", "quantifier": "every listing (also of a dishonest giver), every state of the taker's file system, every order of the workers, success or failure", "why_tests_cant": "an absence of effects over all listings and trees", "anchors": ["jsync/dirtaker.go: DirTaker, takeOneFile, dirTakerRequestIndivFiles"]}
{"id": "C100", "title": "A directory sync done twice does nothing the second time", "statement": "When a directory sync has copied the giver's tree and neither side has changed, a second sync transfers no file and leaves the taker's tree as it is.", "quantifier": "every giver directory, every state of the taker's directory before, every order of the workers in both runs", "why_tests_cant": "unbounded trees and orders", "anchors": ["jsync/dirtaker.go: DirTaker, takeOneFile", "jsync/fileutil_unix.go: updateLinkModTime"]}
{"id": "C101", "title": "State machines agree when logs are compacted and snapshots installed", "statement": "In a cluster of fixed membership whose nodes drop applied log prefixes and install the leader's state snapshots, the sequences of commands applied by any two nodes at any two moments of an execution agree: one is a prefix of the other.", "quantifier": "every cluster size, every schedule of elections, client requests, deliveries, losses, repetitions and reorderings of messages, crashes, compactions and snapshot transfers, every pair of nodes and of moments", "why_tests_cant": "unbounded interleavings of compaction, snapshot installation and leader changes", "anchors": ["tube/tube.go: handleAppendEntries, logsAreMismatched, getStateSnapshot, applyNewStateSnapshot", "tube/wal.go: Compact, maybeCompact, overwriteEntries, installedSnapshot", "tube/rle.go: Extends, CompactNewBeg, Truncate"]}
{"id": "C102", "title": "What was applied once is held by every later leader", "statement": "Once any node has applied a command at some position, every node that is leader at a later moment and in a later term holds that command at that position, in its log or in its compacted state, also when nodes compact their logs and install snapshots.", "quantifier": "every cluster size and execution with compactions, snapshot transfers and crashes, every applied command, every later leader", "why_tests_cant": "depends on all later elections of all executions", "anchors": ["tube/tube.go: handleRequestVote, logUpToDateAsOurs, applyNewStateSnapshot", "tube/wal.go: installedSnapshot, loadPathHelper"]}
{"id": "C103", "title": "Installing a snapshot brings a follower to the leader's state", "statement": "A follower that takes in a state snapshot of the current leader ends, whatever its log, commit position and state were, with the log, the commit position and the applied state the leader had when it took the snapshot, and answers with a positive acknowledgement of that length.", "quantifier": "every state of the leader with a log no shorter than what it applied, every state of a follower in the leader's term", "why_tests_cant": "every pair of a leader's and a follower's state", "anchors": ["tube/tube.go: getStateSnapshot, applyNewStateSnapshot, handleAppendEntries", "tube/wal.go: installedSnapshot"]}
{"id": "C104", "title": "Compaction changes nothing but the log's storage", "statement": "Compacting a node's log at any moment changes neither its applied state, commit position, term, vote nor the entries it can still send past what it applied, and what it answers to a vote request and which entries it keeps on a leader's message are as if it had not compacted.", "quantifier": "every reachable state, every moment of compaction, every later message of a leader with the usual history", "why_tests_cant": "every state and message", "anchors": ["tube/wal.go: Compact, maybeCompact", "tube/rle.go: CompactNewBeg, Extends", "tube/tube.go: handleRequestVote, handleAppendEntries"]}
{"id": "C105", "title": "A leader's message never crashes a follower", "statement": "A follower with a compacted log that handles an append-entries message of a legitimate leader does not panic.", "quantifier": "every reachable state of a follower and every message sent by a leader of the execution", "why_tests_cant": "every reachable combination of logs", "anchors": ["tube/tube.go: handleAppendEntries", "tube/wal.go: overwriteEntries, saveRaftLogEntryDoFsync", "tube/rle.go: Truncate, lastTerm"]}
{"id": "C106", "title": "A circuit delivers its fragments in order, without gaps", "statement": "The fragments read from a circuit's Reads channel are, in order and each once, fragments that arrived for that circuit; while the circuit stays open none of those that arrived after it was opened is missing, and once all have been handed over the reader has exactly what arrived. The same holds of its Errors channel.", "quantifier": "every interleaving of arrivals, opening and closing of circuits, timeouts, slow or absent readers, and shutdown, for any number of circuits of one peer", "why_tests_cant": "Interleavings of channel operations and timers; the losing ones need full buffers.", "anchors": ["pump.go: peerbackPump", "srv.go: handleReply_to_CallID_ToPeerID", "ckt.go: newCircuit, convertMessageToFragment"]}
{"id": "C107", "title": "Closing a circuit is final, and the other side learns of it", "statement": "After a circuit has been closed nothing more is delivered on it, the remote is told of the close at most once and exactly when it did not itself ask for it, and on being told the remote's end of the circuit closes too, whatever reason was given to Close.", "quantifier": "every execution, every reason (nil or not), every state of the two ends", "why_tests_cant": "Close races with delivery and with the remote's close; leaks on the far side are not visible to the closer.", "anchors": ["pump.go: cleanupCkt, CallPeerEndCircuit case", "ckt.go: Circuit.Close, Fragment.ToMessage"]}
{"id": "C108", "title": "The open circuit count counts open circuits", "statement": "OpenCircuitCount returns the number of circuits that have been opened at this peer and not yet closed.", "quantifier": "every execution in which circuits are opened, closed by either side, timed out and shut down", "why_tests_cant": "All histories.", "anchors": ["ckt.go: LocalPeer.OpenCircuitCount", "pump.go: peerbackPump QueryCh case, cleanupCkt"]}
{"id": "C109", "title": "Automatic shutdown happens when asked for, and only then", "statement": "A peer with AutoShutdownWhenNoMoreCircuits set shuts down when its last circuit closes; a peer with AutoShutdownWhenNoMorePeers set shuts down when the last remote peer it knows reports its shutdown; a peer with neither set runs until it is stopped.", "quantifier": "every execution and every setting of the two flags", "why_tests_cant": "All histories of remotes and circuits.", "anchors": ["pump.go: cleanupCkt, CallPeerFromIsShutdown case", "ckt.go: newCircuit, NewCircuitToPeerURL", "ckt2.go: implRemotePeerAndGetCircuit", "mutmap.go: GetValNDel"]}
{"id": "C110", "title": "One stalled circuit or peer does not stall the others", "statement": "A circuit whose user has stopped reading holds up the other circuits of its peer for at most a bounded time, and a peer that has shut down does not hold up the traffic of others on the same connection.", "quantifier": "every state in which some buffers are full and every continuation in which the stalled user takes no step", "why_tests_cant": "Liveness: absence of progress over all continuations.", "anchors": ["pump.go: peerbackPump", "srv.go: handleReply_to_CallID_ToPeerID", "ckt.go: newLocalPeer", "cli.go: UnregisterChannel"]}
{"id": "C111", "title": "A new fragment is blank and nobody else's", "statement": "NewFragment returns a fragment that no other caller currently holds, blank except for sender name and a serial number never handed out before.", "quantifier": "every series of NewFragment, FreeFragment and SendOneWay calls (with and without the keep flag, succeeding or failing) by any number of callers", "why_tests_cant": "Aliasing through the free list shows only in particular orders of calls.", "anchors": ["ckt.go: newFragment, freeFragment, LocalPeer.NewFragment, LocalPeer.FreeFragment, LocalPeer.SendOneWay"]}
{"id": "C112", "title": "Service instances stay within their limit", "statement": "For a service name listed in LimitedServiceNames with maximum n > 0 at most n instances run at any time, whether started locally or at a remote's request; a prefer-extant request is served by the running instance if there is one and never starts a second; and no request from a remote makes the host panic.", "quantifier": "every series of local starts, remote requests of each type with any arguments, registrations and instance exits", "why_tests_cant": "All request sequences and argument combinations.", "anchors": ["ckt.go: RegisterPeerServiceFunc, StartLocalPeer, unlockedStartLocalPeer, bootstrapCircuit, rejectWith", "cli.go: Config.GetLimitMax"]}
{"id": "C113", "title": "A kept fragment goes out on each circuit like a fresh one", "statement": "A fragment kept by SendOneWay (keep flag) and sent on several circuits in turn goes out on each circuit as the very message a fresh fragment with the same contents would become.", "quantifier": "all fragments, all pairs of circuits, all clock values and message serials", "why_tests_cant": "All combinations of circuit fields and caller-filled fields; the tests send on circuits between services of one name.", "anchors": ["ckt.go: LocalPeer.SendOneWay, Circuit.convertFragmentToMessage", "tube/tube.go: the loops that send one fragment to all peers"]}
{"id": "C114", "title": "A request enters the replicated log at most once", "statement": "However a request (Write, CAS, DeleteKey, ...) handed to any node travels - forwarded, delayed, caught by elections, step-downs and restarts - it is put into the replicated log at most once: in one log it stands at one index at most, and in the logs of two nodes at the same index and term, so it is applied at most once.", "quantifier": "all clusters, all interleavings of requests, forwards, message losses and reorderings, elections, step-downs, log replication, snapshots, commits, restarts", "why_tests_cant": "A duplicate needs a particular interleaving of a forward, a step-down and an election.", "anchors": ["tube/tube.go: redirectToLeader, replicateTicket, replicateBatch, resubmitStalledTickets, becomeLeader, becomeFollower", "tube/imap.go: all"]}
{"id": "C115", "title": "The answer to a request is truthful", "statement": "A request answered with success stands, at the log index reported, in the applied part of some node's log. A request answered with an error of the forwarding machinery (no leader, not the leader, lost) is in no log and will never be in one, so it may be resubmitted without being applied twice.", "quantifier": "all clusters, all interleavings, all continuations after the answer", "why_tests_cant": "Speaks about everything that can happen after the answer.", "anchors": ["tube/tube.go: FinishTicket, respondToClientTicketApplied, replyToForwardedTicketWithError, commitWhatWeCan, ifLostTicketTellClient", "tube/actions.go: Write"]}
{"id": "C116", "title": "No request is forgotten", "statement": "A request that has been accepted by a running cluster whose messages arrive is eventually put into the log or answered: as long as it has not been answered some node is still going to act on it; in particular a request that reaches a new leader before the leader's first entry has committed goes into the log once it has, and requests waiting at a node that is elected are taken over.", "quantifier": "all clusters, all interleavings, all continuations", "why_tests_cant": "A liveness claim over all continuations.", "anchors": ["tube/tube.go: resubmitStalledTickets, becomeLeader (take over any WaitingAtFollow), clearBatchToSubmit, tellClientsImNotLeader, TellClientSteppedDown, redirectToLeader", "tube/imap.go: all, repair"]}
{"id": "C117", "title": "The caller of an applied or overwritten request is told", "statement": "When the node a request was handed to applies the request, the waiting call returns. When another request is applied at the index where it had been logged, the call returns with the error that it was lost.", "quantifier": "all clusters, all interleavings", "why_tests_cant": "Overwritten entries need particular elections.", "anchors": ["tube/tube.go: commitWhatWeCan, FinishTicket, ifLostTicketTellClient"]}
{"id": "C118", "title": "A leader logs requests in the order it accepted them", "statement": "The requests one leader puts into the log during one term are, in log order, a prefix of the requests it accepted for the log, in the order it accepted them.", "quantifier": "all clusters, all interleavings, all batchings", "why_tests_cant": "All batch boundaries and interleavings.", "anchors": ["tube/tube.go: replicateTicket, replicateBatch, clearBatchToSubmit"]}
{"id": "C119", "title": "The regions reported for a sparse file are the file's", "statement": "FindSparseRegions reports data and hole spans that follow one another from 0 to the file's size without gap or overlap, alternating between data and hole; holes read as zeros and every byte outside holes is allocated data; IsSparse says whether there is a hole; space reserved beyond the end is reported as such. The chunk list made from the regions describes the file's bytes.", "quantifier": "all files: contents, hole layout, disk usage", "why_tests_cant": "All layouts of holes, and every position in them.", "anchors": ["jsync/sparsified/sparse.go: FindSparseRegions, SparseFileSize", "jcdc/fastcdc4.go: CutpointsAndAllZero", "jsync/rsync.go: SummarizeBytesInCDCHashes"]}
{"id": "C120", "title": "Copying a sparse file gives the same file", "statement": "When CopySparseFile returns without an error the destination has the source's size and bytes and its holes, the source is unchanged, and no other file is touched.", "quantifier": "all files, all pairs of paths, whatever was at the destination", "why_tests_cant": "All layouts of holes and reserved space, all path pairs.", "anchors": ["jsync/sparsified/sparse.go: CopySparseFile", "jsync/sparsified/sparse_linux.go: Fallocate"]}
{"id": "C121", "title": "SparseDiff finds every difference", "statement": "SparseDiff returns nil exactly when the two files have the same size, the same disk usage, the same holes and the same bytes.", "quantifier": "all pairs of files", "why_tests_cant": "A difference may be at any byte of any region.", "anchors": ["jsync/sparsified/sparse.go: SparseDiff"]}
{"id": "C122", "title": "The memory-only log is the same log", "statement": "With NoDisk set, the log holds after any sequence of appends, suffix overwrites, compactions and snapshot installs the entry last written at each index that is not compacted away, and nothing else; it answers as a log on disk does after the same calls; and a call that offers entries that fit the log returns.", "quantifier": "all sequences of calls, all entries, indexes and terms", "why_tests_cant": "The tests of the cluster run on this log: it must be the other log for every sequence of calls, or they test something else.", "anchors": ["tube/memwal.go: saveRaftLogEntry_NODISK, overwriteEntries_NODISK, Compact_NODISK", "tube/wal.go: overwriteEntries, Compact, installedSnapshot, GetEntry, GetAllEntriesFrom", "tube/rle.go: Truncate, AddTerm"]}
{"id": "C123", "title": "Random choices are in range and unbiased", "statement": "A random number asked for from a range is in that range, and with uniformly random input bytes every number of the range is equally likely; an input that is redrawn is redrawn without favouring any result.", "quantifier": "all range sizes, all sequences of random 64-bit words of any length", "why_tests_cant": "Sampling cannot see a bias of one in 2^63, and there are 2^64 inputs per draw.", "anchors": ["mathrand.go: PRNG.PseudoRandNonNegInt64Range, PseudoRandInt64RangePosOrNeg, PseudoRandPositiveInt64, PseudoRandBool", "rand.go: cryptoRandNonNegInt64Range, cryptoRandInt64RangePosOrNeg, cryptoRandPositiveInt64", "tube/mathrand.go", "jsync/sparsified/mathrand.go"]}
{"id": "C124", "title": "A shared random generator can be called from any goroutine", "statement": "Calls on one generator from any number of goroutines all return, whatever the interleaving, and no two draw at the same time.", "quantifier": "all numbers of goroutines, all sequences of calls in each, all schedules", "why_tests_cant": "Schedules; and a call that never returns looks like a slow one.", "anchors": ["mathrand.go: PRNG.Read, Rand15B, NewCallID, PseudoRandNonNegInt64, PseudoRandPositiveInt64, PseudoRandInt64, PseudoRandBool", "tube/mathrand.go: pseudoRandPositiveInt64"]}
{"id": "C125", "title": "Random waiting times stay in their bounds", "statement": "An election timeout is at least the configured minimum and at most twice it; the simulated network's delay is between its minimum and maximum hop.", "quantifier": "all configurations, cluster sizes and random draws, all monotone roundings of floating point arithmetic", "why_tests_cant": "The bound is reached only by rare draws, and depends on the cluster's size.", "anchors": ["tube/tube.go: electionTimeoutDur, minElectionTimeoutDur, maxElectionTimeoutDur", "simnet_api.go: rngHop"]}
{"id": "C126", "title": "A majority that is up can always go on", "statement": "Whatever has happened before, any majority of the members that can reach one another can elect a leader among themselves, and that leader can commit whatever it is then given, without any other member taking part.", "quantifier": "every cluster size, every reachable state, every majority, every list of commands; the others stay silent from then on", "why_tests_cant": "That no reachable state is a dead end is a statement about all states; a cluster that will never elect a leader looks like one that has not done so yet.", "anchors": ["tube/tube.go: beginPreVote, handleRequestPreVote, tallyPreVote, beginElection, handleRequestVote, tallyVote, becomeLeader, replicateBatch, handleAppendEntries, handleAppendEntriesAck, leaderAdvanceCommitIndex"]}
{"id": "C127", "title": "Elections are held only with the consent of a majority", "statement": "A node stands for election in a new term only after a majority of the members, itself included, have answered that they would vote for it in that term; so a node of a cluster of several that hears from nobody raises its term at most once more, however long it is cut off.", "quantifier": "every cluster size, every execution, every length of separation", "why_tests_cant": "Needs all interleavings of pre-votes, elections, restarts and late answers.", "anchors": ["tube/tube.go: beginPreVote, tallyPreVote, resetPreVoteState, the preVoteOkLeaderElecTimeoutCh case of the event loop"]}
{"id": "C128", "title": "Pruning duplicate circuits leaves the peers connected", "statement": "When two nodes have come to hold several circuits to each other, getting rid of the surplus never costs them the last one: as long as neither the network nor a user closes circuits, there is always one that is open at both ends and that both nodes still know of.", "quantifier": "every number of circuits, every order in which the two nodes learn of them, every interleaving of the periodic checks of both nodes, of prune requests, of their delays and losses, and of the notices of closed circuits", "why_tests_cant": "The two nodes decide independently on timers of their own; the losing interleavings need crossing connections or a check within a certain window of seconds.", "anchors": ["tube/tube.go: handleNewCircuit, addToCktall, deleteFromCktAll, globalPruneCktCheck, pruneDown, handlePruneRedundantCircuit, cleanupGoneCktP, the peerLeftCh case of the event loop"]}
{"id": "C129", "title": "A circuit is closed as redundant only on evidence", "statement": "A node closes a circuit as redundant only after the other node has asked for it, for a circuit it had known as a duplicate for ten seconds or more and not between two replicas, and after that very request has arrived over both the circuit to be closed and the one to be kept, which is another one.", "quantifier": "every execution with any number of circuits, requests, delays and losses", "why_tests_cant": "Requires matching requests across all interleavings of several prune rounds of both nodes.", "anchors": ["tube/tube.go: globalPruneCktCheck, pruneDown, handlePruneRedundantCircuit"]}
{"id": "C130", "title": "The simulated network is reproducible", "statement": "The order in which the simulated network takes up the requests of one time slice, and the order in which it lets the callers go on, depend only on what the requests are and on the seed: not on the order in which the goroutines of the program happened to hand them in, nor on the numbers they were given.", "quantifier": "every set of requests of a time slice, every order of submission, every numbering, every seed", "why_tests_cant": "The order of goroutines is up to the run-time; a test sees only the orders it happens to get.", "anchors": ["pq.go: newMasterEventQueue, newOneTimeSliceQ, newReleasableQueue, pq.add, pq.pop", "simnet.go: distributeMEQ, setPseudorandom, releaseReady, mop.tm, mop.priority, mop.whence, mop.bestName", "simnet_api.go: chompAnyUniqSuffix"]}
{"id": "C131", "title": "The event queues of the simulated network are ordered", "statement": "Each of the queues of the simulated network orders requests totally: no two different requests take the same place, none gets lost or doubled, the one taken out is the first by the time the queue goes by, and any one that was put in is found again and can be taken out.", "quantifier": "every queue, every sequence of puts, takes and removals, all requests of all kinds", "why_tests_cant": "A comparison of more than ten fields, some of which do not exist for some kinds, can be intransitive for triples no test contains; a search tree then loses elements.", "anchors": ["pq.go: newPQarrivalTm, newPQinitTm, newPQcompleteTm, newMasterEventQueue, newOneTimeSliceQ, newReleasableQueue, pq.add, pq.pop, pq.peek, pq.del", "simnet.go: mop.tm, mop.priority", "simnet_api.go: SubmitBatch"]}
{"id": "C132", "title": "A session is known until it ends", "statement": "Once the entry that creates a client session has been applied, the node knows the session and accepts requests in it until the requested duration has gone by since the last request in the session, or the session is closed, or the same client opens a newer one.", "quantifier": "every sequence of applied entries, local reads, checks, periodic clean-ups, snapshots and restarts, all session ids, client names, durations and clock readings", "why_tests_cant": "Sessions are kept in three structures with different keys that are changed together in some places only; tests do not combine snapshots with live sessions, nor leaders whose clocks disagree.", "anchors": ["tube/tube.go: applyNewSess, applyEndSess, garbageCollectOldSessions, refreshSession, leaderDoneEarlyOnSessionStuff, leaderServedLocalRead, commitWhatWeCan, updateSessTableByClientName, applyNewStateSnapshot, SessionTableEntry.Clone, RaftState.clone", "tube/sess.go: newSessTableByExpiry"]}
{"id": "C133", "title": "Sessions that have ended are forgotten", "statement": "After each applied entry the node knows no session whose end lies at or before the time it has reached in the log, and at most one session per client name.", "quantifier": "every sequence of applied entries, local reads, checks, periodic clean-ups, snapshots and restarts", "why_tests_cant": "A session that is never removed costs memory only; no test waits for that, least of all after a restart.", "anchors": ["tube/tube.go: garbageCollectOldSessions, updateSessTableByClientName, refreshSession, applyNewStateSnapshot", "tube/sess.go: newSessTableByExpiry, Delete"]}
{"id": "C134", "title": "A list of chunks that is too large for one message arrives whole", "statement": "When a pull is started for a file of which the taker has a version, the giver compares its file with the complete list of the taker's chunks, in order, however many there are, after a finite number of messages none of which is larger than the largest payload; or the sync reports an error.", "quantifier": "every list of chunks, every size of the chunks and of the other fields of the request, and every place at which the circuit may end", "why_tests_cant": "The list is split by count and by encoded size, in different functions; tests use files of a few sizes, whose requests are either small or well over the split, and none cuts the circuit between two of the messages.", "anchors": ["jsync/service.go: Start (K, MoreChunksComming)", "jsync/dirtaker.go: dirTakerRequestIndivFiles", "jsync/giver.go: packAndSendChunksLimitedSize, getMoreChunks, Giver", "jsync/taker.go: Taker (OpRsync_LightRequestEnclosed, begin again)"]}
{"id": "C135", "title": "A giver does not work on a list of chunks with a gap", "statement": "If messages of a split list of chunks are missing or out of order, the giver does not go on with what is left of the list as if it were complete.", "quantifier": "every list of chunks and every way to lose or exchange messages", "why_tests_cant": "Messages are not lost in tests; the check in the code exists for when they are, and looks at the last message only.", "anchors": ["jsync/giver.go: getMoreChunks, packAndSendChunksLimitedSize (FragPart)"]}
{"id": "C136", "title": "Cuts follow the content: an edit moves only cuts near it", "statement": "Whether NextCut ends a chunk at a place depends on the bytes just before that place (a window of fixed size) and on the configured sizes, not on how the chunk began. So of two files that end in the same bytes, a cut of one inside the common part is a cut of the other too, unless the other's current chunk is shorter than the minimum plus the window there, has reached the maximum, or is on the other side of the target size; and after one common cut all later cuts are the same.", "quantifier": "every pair of files with a common end, every valid configuration, every gear table, and every chunker", "why_tests_cant": "Tests cut one or two fixed files, edited in one place, and compare how many chunks are shared on average; whether the hash really forgets what lies before the window concerns all pairs of contents and all distances from the chunk's start.", "anchors": ["jcdc/fastcdc4.go: FastCDC_Plakar.Algorithm, Cutpoints", "jcdc/fnv1a.go: FNVCDC.Algorithm", "jcdc/rabin.go: RabinKarpCDC.Algorithm, initKarpRabinWithOpts"]}
{"id": "C137", "title": "A waiting request of a replicated register keeps a timer", "statement": "While Read or Write requests wait at a Hermes node, a timer is set that fires shortly after the earliest of their deadlines, whatever other requests, acknowledgements and completions come in between; so that a request whose coordinator or followers have failed is taken up again.", "quantifier": "every sequence of requests, acknowledgements of others, completions and timeouts, at all times", "why_tests_cant": "Tests have one request waiting at a time when they stop a node; whether the timer survives depends on how many other requests came in since it was set.", "anchors": ["tube/hermes/hermes.go: setWakeup, checkCoordOrFollowerFailed, writeReq, readReq, deleteTicket, unblockReadsFor, recvAck, Start (nextWakeCh)"]}
{"id": "C138", "title": "The queue of deadlines finds every ticket again", "statement": "The comparison by which waiting tickets are kept in order is a total order that is zero only for the same ticket, so that a ticket in the queue is found when it is to be deleted or moved.", "quantifier": "all pairs of tickets, including those with the same deadline, and all shapes of the search tree", "why_tests_cant": "Deadlines are equal only when two requests are recorded at the same instant, which happens with coarse clocks or simulated time; and a wrong comparison shows only after the tree has been rebalanced.", "anchors": ["tube/hermes/pqtree.go: newPqTime, delOneItem, update", "tube/ticketpq.go: newTicketPQ"]}
{"id": "C139", "title": "A host keeps its identifier", "statement": "All processes on a host, started at any time, have the same host identifier, so that a sync of a file with itself on the same host is recognised; and a crash during the first start does not keep later processes from starting.", "quantifier": "every number of starts, and every place where a start may be interrupted or overlap with another", "why_tests_cant": "The identifier is made once per host; on a machine where tests have run before the file exists already.", "anchors": ["config.go: createHostCID_onDisk, init", "jsync/giver.go: Giver (SyncFromHostCID)", "jsync/taker.go: Taker (SyncFromHostCID)"]}
{"id": "C140", "title": "Looking for the leader finds the latest one", "statement": "A client that looks for the leader of a Tube cluster, and gets answers from several nodes that take themselves for the leader, is given the one with the highest term, in whatever order the nodes are asked; and a node is returned as the leader only if it said so itself. If there is none, the client is given the configured node, or an error if none is configured, and is told that it is not known to be the leader.", "quantifier": "all sets of answers, all orders in which they come, all configurations", "why_tests_cant": "The nodes are asked in the order of a Go map, which differs from run to run; two nodes take themselves for the leader only for a short time after a partition.", "anchors": ["tube/helper.go: HelperFindLeader"]}
{"id": "C141", "title": "Copies and merges of the key-value store hold the same keys and values", "statement": "A copy of a table has exactly the keys and values of the table. Merging one store into another gives every table and key of either, with the value of the second where both have it, and leaves the second as it was.", "quantifier": "all stores and tables made by any sequence of writes and deletes", "why_tests_cant": "Copy and merge go through the iterator and the insertion of a radix tree, whose shape depends on all keys ever written.", "anchors": ["tube/kv.go: ArtTable.clone, KVStore.Merge, KVStore.clone", "tube/art/tree.go: InsertLeaf, Iter", "tube/art/leaf.go: Clone"]}
{"id": "C142", "title": "A silent peer is reconnected", "statement": "When a Tube node has not heard from a peer, directly or through the leader, for four election times and the clock drift bound, it counts the peer as down and tries to reconnect, and again every two seconds until it succeeds. A reconnection that is asked for is tried, the latest request first, and the peer counts as up exactly if the latest try succeeded. The time a peer was last heard from never goes back.", "quantifier": "all sequences of messages heard, requests, timer ticks and results of tries, at all times", "why_tests_cant": "The one test of the watchdog is skipped; and that nothing is tried in a quiet time of any length is a claim about all runs.", "anchors": ["tube/watchdog.go: startWatchdog, reconnect, seen, seenIndirect", "tube/tube.go: backgroundConnectToPeer, up, isPending, followerDownDur"]}
{"id": "C143", "title": "Rolling hashes depend on their window only", "statement": "The value a rolling hash of the chunking package (Rabin-Karp, Gear, Buzhash) gives after a byte depends on the last bytes only, as many as the window it was made with, not on what came before; skipping the simple generator ahead by n gives the same as n steps; and a chunk that the exponential chunker ends is not shorter than the minimum and not longer than the maximum.", "quantifier": "every window size, every gear table, every byte stream; every seed and n; every sequence of hash values", "why_tests_cant": "Tests print a histogram of chunk lengths for one seed; that the hash forgets what left the window concerns all streams.", "anchors": ["jcdc/rolling.go: RabinKarp, GearHash, Buzhash, RollingHash", "jcdc/chunker.go: NewChunker, IsBlock, AddBlock"]}
{"id": "C144", "title": "A peer's metadata reach the other end", "statement": "The metadata last set for a peer arrive with every fragment it sends and with every message that opens or acknowledges a circuit; the arguments the caller put on the fragment arrive as put; no metadata changes an argument of the system; and a node's metadata name the leader it knows now, nothing of an earlier one.", "quantifier": "every sequence of changes to the metadata and to the known leader, every fragment, every order of iteration", "why_tests_cant": "Go iterates maps in any order and callers choose the keys; tests set the metadata once.", "anchors": ["ckt.go: LocalPeer.addUserMeta, LocalPeer.SendOneWay, LocalPeer.newCircuit, Fragment.SetUserArg, Fragment.GetUserArg", "tube/tube.go: TubeNode.leaderWasUpdated"]}
{"id": "C145", "title": "A service's limit is the one last set", "statement": "The limit of instances in force for a service is the one last given to UpdateLimitMax, or none; setting one service's limit leaves those of the others; and a process of the tube command that gets through the check of its configuration has a limit of one replica.", "quantifier": "every configuration, every service name, every sequence of updates", "why_tests_cant": "Concerns all names, all lists and all sequences of updates.", "anchors": ["cli.go: Config.GetLimitMax, Config.UpdateLimitMax", "tube/admin.go: TubeConfig.ProdConfigSaneOrPanic", "tube/tubecmd.go"]}
{"id": "C146", "title": "A received file appears whole or not at all", "statement": "A file that the upload receiver, or the writer of parts in the sync package, saves from a stream of parts is at its path only once the last part was written, and then with exactly the bytes of all parts in their order; before that, and if a part is missing, repeated, damaged or cannot be written, what was at the path stays.", "quantifier": "every sequence of parts, of any content, number and flags, every shortage of disk space at every write, every former content of the path", "why_tests_cant": "Tests upload whole files to a disk that has room; which bytes are on disk when a write fails and when buffered bytes are flushed are not in their reach.", "anchors": ["example.go: ServerSideUploadState.ReceiveFileInParts, PerCallID_FileToDiskState.WriteOneMsgToFile", "jsync/todisk.go: FileToDiskState.WriteOneMsgToFile", "srv.go: beginReadStream"]}
{"id": "C147", "title": "A replica that starts has timings that its protocol can work with", "statement": "A replica started by the tube command runs only with a heartbeat of at least 5 ms, a minimal election time of at least 50 ms, five heartbeats and more than twice the bound on clock drift, a drift bound above zero and of at most a minute, and batches of at most 10 s; durations given above zero are kept as given and others get the defaults, which are accepted. It never shuts itself down over its timings later, and never panics over them when it serves a read.", "quantifier": "every configuration: every duration that fits its type, every combination of the other settings, replica or client", "why_tests_cant": "Tests use a few configurations and a different start; that no accepted configuration fails later is about all of them.", "anchors": ["tube/tubecmd.go: RunTubeServiceMain", "tube/admin.go: ProdConfigSaneOrPanic", "tube/tube.go: insaneConfig, leaderCanServeReadsLocally"]}
{"id": "C148", "title": "Answers about a key describe the key as it is", "statement": "A read that finds its key answers with the key's value, type, holder, lease end, lease epoch, version and log index as stored; a write or compare-and-swap that is refused changes nothing and answers with the same facts about the key in its way (the lease end with the drift bound added). A compare-and-swap that expects the version, the epoch or the value so reported, with nothing in between and on a key that nobody holds, is carried out.", "quantifier": "every store, every key, every request, every clock and drift bound", "why_tests_cant": "Which of the many reasons for a refusal applies depends on leases, clocks and expected values in every combination.", "anchors": ["tube/actions.go: kvstoreWrite, writeFailedSetCurrentVal, KVStoreReadLeaf", "tube/tube.go: doReadKey, doCAS"]}

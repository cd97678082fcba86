/-
Model of round-trip calls: the client's send and read loops and SendAndGetReply, /repo/cli.go,
the dispatch of received messages by call id and peer id, /repo/srv.go `notifies`, and the
part of the server that decides which header a reply carries, /repo/srv.go processWork.

A call is named by a handle: its position in the list of calls made so far. The handle
stands for the call's DoneCh, which is what the tables of the client hold.
-/
namespace Verif.Rpc

/-- hdr.go CallType, as far as the two read loops tell them apart. `peerStart` stands for
CallPeerStart, CallPeerStartCircuit, CallPeerStartCircuitTakeToID and
CallPeerStartCircuitAtMostOne; `peerTraffic` also for CallPeerTrafficWithServiceFallback. -/
inductive Typ
  | keepAlive | peerStart | peerAck | peerTraffic | peerError | callError
  | rpcReply | oneWay | download
deriving DecidableEq, Repr

/-- A message from the server to the client: the header fields the client looks at
(hdr.go:380-430), `body` for the rest. Ids are strings in the code. -/
structure Msg where
  typ : Typ
  callID : Nat
  toPeerID : Option Nat := none
  seqno : Nat
  body : Nat
deriving DecidableEq, Repr

/-- Go map assignment. -/
def put (k v : Nat) (m : List (Nat × Nat)) : List (Nat × Nat) :=
  (k, v) :: m.filter fun p => p.1 ≠ k

/-- Go map lookup. -/
def get (m : List (Nat × Nat)) (k : Nat) : Option Nat :=
  (m.find? fun p => p.1 == k).map (·.2)

/-- Go `delete(m, k)`. -/
def del (k : Nat) (m : List (Nat × Nat)) : List (Nat × Nat) :=
  m.filter fun p => p.1 ≠ k

/-- What a closed DoneCh holds: the message given to CloseWith, or, after a plain Close, the
message it was made with (hdr.go NewMessage: `loquet.NewChan(m)`), that is the request. -/
inductive Done
  | reply (m : Msg)
  | itself
deriving DecidableEq, Repr

/-- The maps of srv.go:862-882 `notifies`: who asked for messages by call id or peer id.
Only the keys matter for where a message goes. -/
structure Notifies where
  readCallID : List Nat := []
  errCallID : List Nat := []
  readPeer : List Nat := []
  errPeer : List Nat := []
deriving DecidableEq, Repr

/-- The client (cli.go:1440-1480): lastSeqno, notifyOnce, notifies, whether the read loop has
returned, and the DoneChs closed so far. -/
structure Client where
  lastSeqno : Nat := 0
  notifyOnce : List (Nat × Nat) := []
  notifies : Notifies := {}
  stopped : Bool := false
  done : List (Nat × Done) := []
deriving DecidableEq, Repr

/-- cli.go:2669-2672 `nextSeqno`: an atomic add on a uint64. -/
def Client.nextSeqno (c : Client) : Client × Nat :=
  let n := (c.lastSeqno + 1) % 2 ^ 64
  ({ c with lastSeqno := n }, n)

/-- loquet.Chan CloseWith / Close: the first close decides (the package is a dependency
outside /repo; this is its documented behaviour and is assumed). -/
def Client.close (c : Client) (h : Nat) (d : Done) : Client :=
  if c.done.any (fun p => p.1 == h) then c else { c with done := c.done ++ [(h, d)] }

/-- Where a message that `notifies` wants goes. -/
inductive Dest
  | peerErr (k : Nat) | callErr (k : Nat) | peerRead (k : Nat) | callRead (k : Nat)
deriving DecidableEq, Repr

/-- srv.go:940-1040 `handleReply_to_CallID_ToPeerID`: the channel a message is sent on, or
none when it reports false. The sends wait until the receiver is ready; giving up on
shutdown, and the five second limit for a peer that does not read, are left out. -/
def Notifies.handle (n : Notifies) (m : Msg) : Option Dest :=
  let isErr := m.typ = .callError ∨ m.typ = .peerError
  match m.toPeerID with
  | some p =>
    if isErr ∧ p ∈ n.errPeer then some (.peerErr p)
    else if isErr ∧ m.callID ∈ n.errCallID then some (.callErr m.callID)
    else if p ∈ n.readPeer then some (.peerRead p)
    else if m.callID ∈ n.readCallID then some (.callRead m.callID)
    else none
  | none =>
    if isErr ∧ m.callID ∈ n.errCallID then some (.callErr m.callID)
    else if m.callID ∈ n.readCallID then some (.callRead m.callID)
    else none

/-- What became of one received message. -/
inductive Delivery
  | ignored                 -- the read loop has returned, or a keep-alive
  | peerSetup               -- handed to the peer code
  | notify (d : Dest)
  | stop                    -- the read loop returns
  | call (h : Nat)          -- completes call h
  | listeners               -- offered to every GetReads channel
deriving DecidableEq, Repr

/-- cli.go:483-565 one round of `runReadLoop` after a message was read. -/
def Client.recv (c : Client) (m : Msg) : Client × Delivery :=
  if c.stopped then (c, .ignored)
  else match m.typ with
  | .keepAlive => (c, .ignored)
  | .peerStart => (c, .peerSetup)
  | .peerAck => (c, .peerSetup)
  | _ =>
    match c.notifies.handle m with
    | some d => (c, .notify d)
    | none =>
      if m.typ = .peerTraffic ∨ m.typ = .peerError then ({ c with stopped := true }, .stop)
      else match get c.notifyOnce m.seqno with
        | some h => ({ c with notifyOnce := del m.seqno c.notifyOnce }.close h (.reply m), .call h)
        | none => (c, .listeners)

/-- cli.go:1865-1869 `GetOneRead`. -/
def Client.getOneRead (c : Client) (seqno h : Nat) : Client :=
  { c with notifyOnce := put seqno h c.notifyOnce }

/-- cli.go:1871-1878 `UngetOneRead`. -/
def Client.ungetOneRead (c : Client) (seqno h : Nat) : Client :=
  if get c.notifyOnce seqno = some h then { c with notifyOnce := del seqno c.notifyOnce } else c

/-! ### The client, the server and what is on the way -/

/-- What SendAndGetReply returned (cli.go:2231-2310). `reply` is a message taken from DoneCh;
`sendFailed` is the request itself taken from DoneCh, with LocalErr set. -/
inductive Outcome
  | reply (m : Msg)
  | sendFailed
  | cancelled | timeout | shutdown
deriving DecidableEq, Repr

/-- One SendAndGetReply: its request's CallID and contents, the Seqno the send loop gave it,
and its outcome. -/
structure Call where
  callID : Nat
  body : Nat
  seqno : Option Nat := none
  outcome : Option Outcome := none
deriving DecidableEq, Repr

/-- Kinds of client messages: a two-way call (CallRPC, CallNetRPC); the start of a stream
(CallUploadBegin, CallRequestDownload, CallRequestBistreaming), which the server answers with
parts and a final reply; a one-way message, answered only by a CallError; and those never
answered (CallUploadMore, CallUploadEnd, CallCancelPrevious). -/
inductive Kind | rpc | stream | oneWay | silent
deriving DecidableEq, Repr

/-- A message from the client to the server. `origin` is not on the wire: it names the call
that sent it. -/
structure Req where
  kind : Kind
  callID : Nat
  seqno : Nat
  body : Nat
  origin : Option Nat := none
deriving DecidableEq, Repr

/-- A client and a server on one connection. `taken` holds the sequence numbers handed out
for streams; `toSrv` the requests sent and not finished; `toCli` the messages on their way
back; `answers` is a history: which message the server sent when it finished which request.
Messages overtake each other freely, which includes the order of the connection. -/
structure Sys where
  cli : Client := {}
  calls : List Call := []
  taken : List Nat := []
  toSrv : List Req := []
  toCli : List Msg := []
  answers : List (Req × Msg) := []
deriving DecidableEq, Repr

inductive Op
  /-- SendAndGetReply is entered (cli.go:2157-2228). -/
  | submit (callID body : Nat)
  /-- The send loop takes call `h` from roundTripCh; `ok`: the write succeeded. -/
  | accept (h : Nat) (ok : Bool)
  /-- UploadBegin, NewDownloader, NewBistreamer take a sequence number. -/
  | takeSeqno
  /-- The stream with the i-th such number sends its first message. -/
  | stream (i callID body : Nat)
  /-- A one-way message; `preset` is HDR.Seqno as the user set it. -/
  | oneWay (kind : Kind) (callID preset body : Nat)
  /-- SendAndGetReply returns: DoneCh was closed. -/
  | finish (h : Nat)
  /-- SendAndGetReply returns for another reason. -/
  | giveUp (h : Nat) (why : Outcome)
  /-- The cancellation SendAndGetReply sends before returning passes the send loop
  (cli.go:2270-2283): it shares the call's DoneCh. Nothing answers it. -/
  | sendCancel (h : Nat)
  /-- Somebody (un)registers for messages by call or peer id. -/
  | setNotifies (n : Notifies)
  /-- The handler of the i-th request returns; the reply is sent. -/
  | serve (i body : Nat)
  /-- No handler for the i-th request: CallError is sent. -/
  | refuse (i : Nat)
  /-- The i-th request, a stream, sends a part. -/
  | part (i body : Nat)
  /-- The server sends any message of its own (SendMessage, SendOneWayMessage). -/
  | push (m : Msg)
  /-- The client's read loop gets the i-th message. -/
  | deliver (i : Nat)
deriving DecidableEq, Repr

/-- cli.go:775-797 the `<-c.roundTripCh` case. The channel is not buffered, so a call is
taken while its caller is in SendAndGetReply, and at most once. -/
def Sys.accept (s : Sys) (h : Nat) (ok : Bool) : Sys :=
  match s.calls[h]? with
  | some c =>
    if c.seqno = none ∧ c.outcome = none then
      let (cli, q) := s.cli.nextSeqno
      let cli := cli.getOneRead q h
      let s := { s with calls := s.calls.set h { c with seqno := some q } }
      if ok then { s with cli := cli, toSrv := s.toSrv ++ [⟨.rpc, c.callID, q, c.body, some h⟩] }
      else { s with cli := (cli.ungetOneRead q h).close h .itself }
    else s
  | none => s

/-- cli.go:732-773 the `<-c.oneWayCh` case: a sequence number is given unless one is set. -/
def Sys.oneWay (s : Sys) (kind : Kind) (callID preset body : Nat) : Sys :=
  let (cli, q) := if preset = 0 then s.cli.nextSeqno else (s.cli, preset)
  { s with cli := cli, toSrv := s.toSrv ++ [⟨kind, callID, q, body, none⟩] }

/-- srv.go:1260-1281 the header of a reply: CallID and Seqno are those of the request; the
same for net/rpc calls (srv.go:1642-1663). -/
def replyTo (r : Req) (body : Nat) : Msg := ⟨.rpcReply, r.callID, none, r.seqno, body⟩

/-- srv.go:3106-3113 `respondToReqWithError`: the request's own header goes back. -/
def errorTo (r : Req) : Msg := ⟨.callError, r.callID, none, r.seqno, 0⟩

/-- srv.go:3036-3100 a part of a download carries the request's CallID and Seqno. -/
def partOf (r : Req) (body : Nat) : Msg := ⟨.download, r.callID, none, r.seqno, body⟩

/-- The server is done with the i-th request and sends `m`. -/
def Sys.answer (s : Sys) (i : Nat) (r : Req) (m : Msg) : Sys :=
  { s with toSrv := s.toSrv.eraseIdx i, toCli := s.toCli ++ [m], answers := s.answers ++ [(r, m)] }

def Sys.step (s : Sys) : Op → Sys
  | .submit callID body => { s with calls := s.calls ++ [{ callID, body }] }
  | .accept h ok => s.accept h ok
  | .takeSeqno =>
    let (cli, q) := s.cli.nextSeqno
    { s with cli := cli, taken := s.taken ++ [q] }
  | .stream i callID body =>
    match s.taken[i]? with
    | some q => { s with toSrv := s.toSrv ++ [⟨.stream, callID, q, body, none⟩] }
    | none => s
  | .oneWay kind callID preset body => if kind = .rpc then s else s.oneWay kind callID preset body
  | .finish h =>
    match s.calls[h]?, s.cli.done.find? (fun p => p.1 == h) with
    | some c, some (_, d) =>
      if c.outcome = none then
        { s with calls := s.calls.set h { c with outcome := some (match d with
          | .reply m => .reply m
          | .itself => .sendFailed) } }
      else s
    | _, _ => s
  | .giveUp h why =>
    match s.calls[h]? with
    | some c =>
      if c.outcome = none ∧ (why = .cancelled ∨ why = .timeout ∨ why = .shutdown) then
        { s with calls := s.calls.set h { c with outcome := some why } }
      else s
    | none => s
  | .sendCancel h =>
    match s.calls[h]? with
    | some c =>
      if c.outcome = some .cancelled then
        { s with cli := s.cli.close h .itself,
                 toSrv := s.toSrv ++ [⟨.silent, c.callID, c.seqno.getD 0, c.body, none⟩] }
      else s
    | none => s
  | .setNotifies n => { s with cli := { s.cli with notifies := n } }
  | .serve i body =>
    match s.toSrv[i]? with
    | some r => if r.kind = .rpc ∨ r.kind = .stream then s.answer i r (replyTo r body) else s
    | none => s
  | .refuse i =>
    match s.toSrv[i]? with
    | some r => if r.kind ≠ .silent then s.answer i r (errorTo r) else s
    | none => s
  | .part i body =>
    match s.toSrv[i]? with
    | some r => if r.kind = .stream then { s with toCli := s.toCli ++ [partOf r body] } else s
    | none => s
  | .push m => { s with toCli := s.toCli ++ [m] }
  | .deliver i =>
    match s.toCli[i]? with
    | some m => { s with cli := (s.cli.recv m).1, toCli := s.toCli.eraseIdx i }
    | none => s

def Sys.run (s : Sys) (ops : List Op) : Sys := ops.foldl Sys.step s

end Verif.Rpc

/-
Model of the server side of streams and cancellation, /repo/srv.go:
sendDownloadPart, registerInFlightCallToCancel, cancelCallID.
-/
namespace Verif.Stream

/-! ### Downloads -/

/-- hdr.go CallDownloadBegin / CallDownloadMore / CallDownloadEnd. -/
inductive PartTyp | begin | more | fin
deriving DecidableEq, Repr

/-- The part of a download message the stream logic sets: HDR.Typ, HDR.StreamPart,
HDR.CallID; `body` stands for the user's Args and JobSerz, which are kept. -/
structure Part where
  typ : PartTyp
  streamPart : Nat
  callID : Nat
  body : Nat
deriving DecidableEq, Repr

/-- srv.go:3010-3022 `serverSendDownloadHelper`: template.HDR.CallID and nextPart. -/
structure Helper where
  callID : Nat
  nextPart : Nat := 0
deriving DecidableEq, Repr

/-- One call of sendDownloadPart: the user's message, the `last` flag and what the world did:
ctx already done, or the write's outcome. -/
structure Call where
  body : Nat
  last : Bool
  ctxDone : Bool := false
  writeOk : Bool := true
deriving DecidableEq, Repr

/-- srv.go:3051-3103 `sendDownloadPart`: new helper state, bytes put on the connection,
error or nil. It runs under s.mut from the read of nextPart to the return of sendMessage,
so concurrent callers act in the order they get the lock. A failed write puts nothing
(whole) on the wire but uses up the number. -/
def sendDownloadPart (h : Helper) (c : Call) : Helper × Option Part × Bool :=
  if c.ctxDone then (h, none, false)
  else
    let i := h.nextPart
    let typ := if i = 0 then PartTyp.begin else if c.last then PartTyp.fin else PartTyp.more
    ({ h with nextPart := h.nextPart + 1 },
     if c.writeOk then some ⟨typ, i, h.callID, c.body⟩ else none, c.writeOk)

/-- Any number of calls, in lock order; what reaches the connection. -/
def runDownload (h : Helper) : List Call → Helper × List Part
  | [] => (h, [])
  | c :: cs =>
    let (h', p, _) := sendDownloadPart h c
    let (h'', ps) := runDownload h' cs
    (h'', p.toList ++ ps)

/-! ### Cancellation -/

/-- A call id (strings in the code). -/
abbrev CallID := Nat

/-- srv.go:2831-2845 `callctx`: only whether it holds a cancelFunc, and for which
execution of the call (each processWork makes its own context). -/
structure CallCtx where
  cancelFunc : Option CallID
deriving DecidableEq, Repr

/-- The server's part: the in-flight table, the calls whose handler is running with a
registered context, and the contexts cancelled so far. -/
structure Srv where
  active : List (CallID × CallCtx) := []
  running : List CallID := []
  cancelled : List CallID := []
deriving DecidableEq, Repr

def lookup (l : List (CallID × CallCtx)) (id : CallID) : Option CallCtx :=
  (l.find? (fun p => p.1 == id)).map (·.2)

def erase (l : List (CallID × CallCtx)) (id : CallID) : List (CallID × CallCtx) :=
  l.filter (fun p => p.1 != id)

/-- srv.go:2847-2905 `registerInFlightCallToCancel`. `cf = none` is the read loop's early
registration of an upload / bistream request, `cf = some id` the worker's. -/
def register (s : Srv) (id : CallID) (cf : Option CallID) : Srv :=
  { s with active := (id, ⟨cf⟩) :: erase s.active id }

/-- srv.go:2918-2936 `cancelCallID`. -/
def cancelCallID (s : Srv) (id : CallID) : Srv :=
  match lookup s.active id with
  | none => s
  | some cc =>
    let s := match cc.cancelFunc with
      | some c => { s with cancelled := c :: s.cancelled }
      | none => s
    { s with active := erase s.active id }

/-- The critical sections of the server goroutines that touch the table. -/
inductive Step
  /-- handleIncomingMessage, srv.go:825-857: an upload or bistream request is read. -/
  | readStreamReq (id : CallID)
  /-- processWork, srv.go:1222-1236: the worker registers its fresh context and runs the handler. -/
  | start (id : CallID)
  /-- processWork of CallCancelPrevious. -/
  | cancel (id : CallID)
  /-- processWork returning: `defer noLongerInFlight`, `defer cancelFunc`. -/
  | finish (id : CallID)
deriving DecidableEq, Repr

/-- One critical section. `finish` of a call cancels its own context; the handler is
then no longer running, which is what `running` records. -/
def step (s : Srv) : Step → Srv
  | .readStreamReq id => register s id none
  | .start id => { register s id (some id) with running := id :: s.running }
  | .cancel id => cancelCallID s id
  | .finish id =>
    let s := cancelCallID s id
    { s with running := s.running.filter (· != id), cancelled := id :: s.cancelled }

def run (s : Srv) (steps : List Step) : Srv := steps.foldl step s

end Verif.Stream

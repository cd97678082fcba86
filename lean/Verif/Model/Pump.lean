import Verif.Model.Frag
/-
Model of one peer's message pump, /repo/pump.go `peerbackPump`, with the channels around it: the
connections that fill ReadsIn and ErrorsIn (srv.go `handleReply_to_CallID_ToPeerID`), users who open,
read and close circuits (ckt.go), and shutdown. One step is one choice of one `select`. A timer case
may be taken whenever it is armed: durations are not modelled. Messages, fragments and their
conversion are those of Model/Frag.
-/
namespace Verif.Pump

open Verif.Frag

/-- hdr.go:49, 85, 86. -/
def callError : Int := 104
def callPeerFromIsShutdown : Int := 119
def callPeerEndCircuit : Int := 120

/-- Capacity of ReadsIn and ErrorsIn (ckt.go:812-813) and of a circuit's Reads and Errors
(ckt.go:1111-1112). -/
def cap : Nat := 100

/-- ckt.go `Circuit` at run time. `reads` and `errors` are the buffered channels. `stopReq` says that
Halt.ReqStop is closed, `reason` is the text of its reason (empty for nil), `canc` that Context is
cancelled. History: `got` and `gotErr` are what the user has received, `born` and `bornErr` how many
messages had arrived for the peer when the pump took the circuit. -/
structure Ckt where
  info : Circuit
  reads : List Fragment := []
  errors : List Fragment := []
  stopReq : Bool := false
  reason : Str := []
  canc : Bool := false
  got : List Fragment := []
  gotErr : List Fragment := []
  born : Nat := 0
  bornErr : Nat := 0
deriving DecidableEq, Repr

def Ckt.id (k : Ckt) : Str := k.info.circuitID

/-- Where the pump is: at its outer select (pump.go:172), at the select that delivers a fragment
(:247, with the circuits whose close is postponed, `ckt5s`), at the select that delivers an error
(:392), or returned. -/
inductive Phase
  | idle
  | reads (c : Nat) (f : Fragment) (late : List Nat)
  | errs (c : Nat) (f : Fragment)
  | stopped
deriving DecidableEq, Repr

/-- The peer. A circuit is named by its place in `ckts`, which stands for its pointer; `m` is the
pump's map (pump.go:43). `remotes` is LocalPeer.Remotes: key and PeerID. `stop` says that
Halt.ReqStop is closed or the context cancelled. `out` is what the pump has sent. History: `arrived`
and `arrivedErr` are the messages the connections had for ReadsIn and for ErrorsIn. -/
structure State where
  self : Str := []
  autoCkts : Bool := false
  autoPeers : Bool := false
  ckts : List Ckt := []
  m : List (Str × Nat) := []
  readsIn : List Message := []
  errorsIn : List Message := []
  remotes : List (Str × Str) := []
  phase : Phase := .idle
  stop : Bool := false
  out : List Message := []
  arrived : List Message := []
  arrivedErr : List Message := []
deriving DecidableEq, Repr

/-- Go map operations on an association list. -/
def lookup {α} (m : List (Str × α)) (k : Str) : Option α := (m.find? (fun p => p.1 == k)).map (·.2)
def erase {α} (m : List (Str × α)) (k : Str) : List (Str × α) := m.filter (fun p => p.1 != k)
def insert {α} (m : List (Str × α)) (k : Str) (v : α) : List (Str × α) := erase m k ++ [(k, v)]

/-- pump.go:72-93: the message that tells the remote of the close. The fragment's Serial and the
message's Created are not modelled (1 and 0). -/
def closing (k : Ckt) : Message :=
  convertFragmentToMessage 0 1 k.info
    { typ := callPeerEndCircuit
      serial := 1
      fromPeerName := k.info.localPeerName
      err := if k.stopReq then k.reason else []
      circuitID := k.id
      fromPeerID := k.info.localPeerID
      toPeerID := k.info.remotePeerID }

/-- pump.go:45-140 `cleanupCkt`. Whether the sending of the message succeeds, waits or is handed to
another goroutine is not modelled: it goes to `out`. -/
def cleanup (s : State) (c : Nat) (notifyPeer : Bool) : State :=
  match s.ckts[c]? with
  | none => s
  | some k =>
    if (lookup s.m k.id).isNone then s
    else
      { s with
        out := if notifyPeer then s.out ++ [closing k] else s.out
        ckts := s.ckts.set c { k with canc := true, stopReq := true }
        stop := s.stop || (s.autoCkts && s.m.isEmpty)
        m := erase s.m k.id }

/-- pump.go:348-352: the postponed closes, one after the other. -/
def cleanups (s : State) (cs : List Nat) : State := cs.foldl (fun s c => cleanup s c true) s

/-- pump.go:413-440 `TellRemoteWeShutdown`, the fields the receiving pump looks at. -/
def notice (self : Str) (r : Str × Str) : Message :=
  { typ := callPeerFromIsShutdown, fromPeerID := self, toPeerID := r.2 }

/-- pump.go:141-167 and 32-36: the deferred functions. The order in which the map is walked is not
fixed by the code; the model walks it in order of insertion. -/
def exitPump (s : State) : State :=
  let s := cleanups s (s.m.map (·.2))
  { s with
    m := []
    out := s.out ++ s.remotes.map (notice s.self)
    stop := true
    phase := .stopped }

/-- pump.go:191-239: what the pump does with a message taken from ReadsIn. -/
def onRead (s : State) (msg : Message) : State :=
  if msg.typ = callPeerFromIsShutdown ∧ msg.fromPeerID ≠ s.self ∧
      (erase s.remotes msg.fromPeerID).isEmpty ∧ s.autoPeers then
    exitPump { s with remotes := erase s.remotes msg.fromPeerID }
  else
    let s := if msg.typ = callPeerFromIsShutdown ∧ msg.fromPeerID ≠ s.self then
        { s with remotes := erase s.remotes msg.fromPeerID }
      else s
    match lookup s.m msg.callID with
    | none => s
    | some c =>
      if msg.typ = callPeerEndCircuit then cleanup s c false
      else { s with phase := .reads c (convertMessageToFragment msg) [] }

/-- pump.go:342-357: leaving the delivery select. -/
def finish (s : State) (late : List Nat) : State := cleanups { s with phase := .idle } late

/-- srv.go:943-966: does the message go to ErrorsIn? -/
def isErr (msg : Message) : Bool := msg.typ == callError || msg.typ == callPeerError

/-- What can happen next. -/
inductive Action
  /-- newCircuit hands a new circuit to the pump (ckt.go:1151, pump.go:182 or 254). -/
  | tell (info : Circuit)
  /-- a connection puts a message into ReadsIn or ErrorsIn (srv.go:940-1019) -/
  | arrive (msg : Message)
  /-- ReadsIn stayed full for five seconds: the message is dropped (srv.go:1003-1015) -/
  | drop (msg : Message)
  /-- Circuit.Close, first part: the halt request with its reason (ckt.go:1363) -/
  | reqClose (c : Nat) (reason : Str)
  /-- Circuit.Close, second part: the pump takes the circuit (ckt.go:1366, pump.go:187 or 304) -/
  | handClose (c : Nat)
  /-- the pump takes a message (pump.go:191) -/
  | takeRead
  /-- the pump takes an error message (pump.go:359) -/
  | takeErr
  /-- the fragment goes into Reads (pump.go:329) -/
  | put
  /-- the fragment goes into Errors (pump.go:393) -/
  | putErr
  /-- two seconds without delivery (pump.go:264) -/
  | timeout2
  /-- five seconds since the first postponed close (pump.go:302) -/
  | timeout5
  /-- the halt request of the circuit is seen while delivering (pump.go:331, 394) -/
  | seeHalt
  /-- the peer or its host is asked to stop -/
  | reqStop
  /-- the pump sees the request (pump.go:173, 335, 338, 397, 399) -/
  | exit
  /-- the user of a circuit receives a fragment, or an error fragment -/
  | read (c : Nat)
  | readErr (c : Nat)
  /-- Remotes.Set -/
  | addRemote (key peerID : Str)
deriving Repr

/-- ckt.go:1108-1134 and pump.go:182-185: a new circuit enters the pump's map. -/
def newCkt (s : State) (info : Circuit) : Ckt :=
  { info := info
    born := s.arrived.length
    bornErr := s.arrivedErr.length }

def tellPump (s : State) (info : Circuit) : State :=
  { s with
    ckts := s.ckts ++ [newCkt s info]
    m := insert s.m info.circuitID s.ckts.length }

/-- One step; `none` when the action is not possible. -/
def step (s : State) : Action → Option State
  | .tell info =>
    match s.phase with
    | .idle => some (tellPump s info)
    | .reads _ _ _ => some (tellPump s info)
    | _ => none
  | .arrive msg =>
    if msg.toPeerID ≠ s.self then none
    else if isErr msg then
      if s.errorsIn.length < cap then
        some { s with errorsIn := s.errorsIn ++ [msg], arrivedErr := s.arrivedErr ++ [msg] }
      else none
    else if s.readsIn.length < cap then
      some { s with readsIn := s.readsIn ++ [msg], arrived := s.arrived ++ [msg] }
    else none
  | .drop msg =>
    if msg.toPeerID ≠ s.self then none
    else if isErr msg then none
    else if s.readsIn.length < cap then none
    else some { s with arrived := s.arrived ++ [msg] }
  | .reqClose c reason =>
    match s.ckts[c]? with
    | none => none
    | some k =>
      if k.stopReq then some s
      else some { s with ckts := s.ckts.set c { k with stopReq := true, reason := reason } }
  | .handClose c =>
    match s.ckts[c]? with
    | none => none
    | some k =>
      if k.stopReq then
        match s.phase with
        | .idle => some (cleanup s c true)
        | .reads d f late => some { s with phase := .reads d f (late ++ [c]) }
        | _ => none
      else none
  | .takeRead =>
    match s.phase, s.readsIn with
    | .idle, msg :: rest => some (onRead { s with readsIn := rest } msg)
    | _, _ => none
  | .takeErr =>
    match s.phase, s.errorsIn with
    | .idle, msg :: rest =>
      let s := { s with errorsIn := rest }
      match lookup s.m msg.callID with
      | none => some s
      | some c => some { s with phase := .errs c (convertMessageToFragment msg) }
    | _, _ => none
  | .put =>
    match s.phase with
    | .reads c f late =>
      match s.ckts[c]? with
      | none => none
      | some k =>
        if k.reads.length < cap then
          some (finish { s with ckts := s.ckts.set c { k with reads := k.reads ++ [f] } } late)
        else none
    | _ => none
  | .putErr =>
    match s.phase with
    | .errs c f =>
      match s.ckts[c]? with
      | none => none
      | some k =>
        if k.errors.length < cap then
          some { s with ckts := s.ckts.set c { k with errors := k.errors ++ [f] }, phase := .idle }
        else none
    | _ => none
  | .timeout2 =>
    match s.phase with
    | .reads c _ late => some (finish (cleanup s c true) late)
    | _ => none
  | .timeout5 =>
    match s.phase with
    | .reads _ _ late => if late.isEmpty then none else some (finish s late)
    | _ => none
  | .seeHalt =>
    match s.phase with
    | .reads c _ late =>
      match s.ckts[c]? with
      | none => none
      | some k => if k.stopReq then some (finish (cleanup s c true) late) else none
    | .errs c _ =>
      match s.ckts[c]? with
      | none => none
      | some k => if k.stopReq then some { cleanup s c true with phase := .idle } else none
    | _ => none
  | .reqStop => some { s with stop := true }
  | .exit =>
    if s.stop then
      match s.phase with
      | .idle => some (exitPump s)
      | .reads _ _ late => some (exitPump (finish s late))
      | .errs _ _ => some (exitPump s)
      | .stopped => none
    else none
  | .read c =>
    match s.ckts[c]? with
    | none => none
    | some k =>
      match k.reads with
      | [] => none
      | f :: rest => some { s with ckts := s.ckts.set c { k with reads := rest, got := k.got ++ [f] } }
  | .readErr c =>
    match s.ckts[c]? with
    | none => none
    | some k =>
      match k.errors with
      | [] => none
      | f :: rest =>
        some { s with ckts := s.ckts.set c { k with errors := rest, gotErr := k.gotErr ++ [f] } }
  | .addRemote key peerID => some { s with remotes := insert s.remotes key peerID }

/-- A series of steps. -/
def run (s : State) : List Action → Option State
  | [] => some s
  | a :: as => (step s a).bind (fun s' => run s' as)

/-- ckt.go:1032-1046 `OpenCircuitCount` when the pump answers (pump.go:177-180). -/
def openCircuitCount (s : State) : Nat := s.m.length

/-- ckt.go:1228-1235: the key newCircuit stores a remote under, and its Remotes.Set. -/
def newCircuitRemote (netAddr peerID : Str) : Action :=
  .addRemote (if peerID = [] ∧ netAddr ≠ [] then netAddr else peerID) peerID

end Verif.Pump

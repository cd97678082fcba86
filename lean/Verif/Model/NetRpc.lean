/-
Model of the net/rpc style calls: /repo/cli.go Go, Call, send, gotNetRpcInput, and
/repo/srv.go callBridgeNetRpc, sendResponse.

The client sends one such call at a time: `send` holds reqMutex until SendAndGetReply
returns. The server runs each request in its own goroutine, and all requests of one
connection share the pair's decBuf and encBuf without a lock.
-/
namespace Verif.NetRpc

/-- Where the goroutine serving a request stands, srv.go:1515-1555 and 1613-1660. -/
inductive Pc
  | start    -- processWork has the request
  | loaded   -- buffers reset, the request's bytes in decBuf (1526-1532)
  | run      -- request decoded from decBuf (1534)
  | wrote    -- response appended to encBuf under p.sending (1626-1634)
  | sent     -- encBuf copied into a message and sent (1658-1663)
  | failed   -- nothing to decode: no answer
deriving DecidableEq, Repr

/-- One request: the number and argument the client encoded, and what the goroutine decoded.
`Seq` is Request.Seq; the reply travels with the Seqno of its own request, so it comes back
to the call that sent it (C51). -/
structure Worker where
  arg : Nat
  pc : Pc := .start
  seq : Nat := 0
  val : Nat := 0
deriving DecidableEq, Repr

/-- What a call returned: the method's result, or an error (timed out, cancelled). -/
inductive Result
  | ok (v : Nat)
  | error
deriving DecidableEq, Repr

/-- decBuf holds at most one request (it is reset first): the request is taken to be decoded
in one go. encBuf holds encoded responses one after another. `waiting`: the call that holds
reqMutex. Calls are numbered in order; call n is served by the n-th worker. -/
structure Sys where
  dec : Option (Nat × Nat) := none
  enc : List (Nat × Nat) := []
  workers : List Worker := []
  replies : List (Nat × List (Nat × Nat)) := []
  waiting : Option Nat := none
  pending : List Nat := []
  results : List (Nat × Result) := []
  panicked : Bool := false
deriving DecidableEq, Repr

inductive Op
  | call (arg : Nat)       -- Call / Go with this argument
  | timeout                -- SendAndGetReply gives up (20 s, or the caller's context)
  | work (w : Nat)         -- the goroutine of request w does its next piece
  | deliver (i : Nat)      -- the i-th reply reaches the client
deriving DecidableEq, Repr

/-- The next piece of work of request `w`; `f` is the method. -/
def Sys.work (f : Nat → Nat) (s : Sys) (w : Nat) (x : Worker) : Sys :=
  match x.pc with
  | .start => { s with enc := [], dec := some (w, x.arg), workers := s.workers.set w { x with pc := .loaded } }
  | .loaded =>
    match s.dec with
    | some (q, a) =>
      { s with dec := none, workers := s.workers.set w { x with pc := .run, seq := q, val := f a } }
    | none => { s with workers := s.workers.set w { x with pc := .failed } }
  | .run =>
    { s with enc := s.enc ++ [(x.seq, x.val)], workers := s.workers.set w { x with pc := .wrote } }
  | .wrote =>
    { s with replies := s.replies ++ [(w, s.enc)], workers := s.workers.set w { x with pc := .sent } }
  | .sent => s
  | .failed => s

/-- cli.go:1671-1738 `gotNetRpcInput`: only the first response of the message is read; a call
that is not pending any more is skipped. An undecodable header panics. -/
def Sys.input (s : Sys) (by_ : List (Nat × Nat)) : Sys :=
  match by_ with
  | [] => { s with panicked := true }
  | (q, v) :: _ =>
    if q ∈ s.pending then
      { s with pending := s.pending.filter (· ≠ q), results := s.results ++ [(q, .ok v)] }
    else s

def Sys.step (f : Nat → Nat) (s : Sys) : Op → Sys
  | .call arg =>
    if s.waiting = none then
      { s with workers := s.workers ++ [{ arg }], waiting := some s.workers.length,
               pending := s.pending ++ [s.workers.length] }
    else s
  | .timeout =>
    match s.waiting with
    | some h =>
      if h ∈ s.pending then
        { s with waiting := none, pending := s.pending.filter (· ≠ h),
                 results := s.results ++ [(h, .error)] }
      else { s with waiting := none }
    | none => s
  | .work w =>
    match s.workers[w]? with
    | some x => s.work f w x
    | none => s
  | .deliver i =>
    match s.replies[i]? with
    | some (h, by_) =>
      let s := { s with replies := s.replies.eraseIdx i }
      -- cli.go:1655-1660: read only by the call whose DoneCh it is, if that still waits
      if s.waiting = some h then { s.input by_ with waiting := none } else s
    | none => s

def Sys.run (f : Nat → Nat) (s : Sys) (ops : List Op) : Sys := ops.foldl (Sys.step f) s

end Verif.NetRpc

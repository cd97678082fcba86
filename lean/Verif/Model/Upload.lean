/-
Model of uploads: /repo/cli.go UploadBegin, UploadMore, and /repo/srv.go handleIncomingMessage,
registerInFlightCallToCancel, handleUploadParts, cancelCallID, beginReadStream. One connection.
-/
namespace Verif.Upload

/-- hdr.go CallUploadBegin / CallUploadMore / CallUploadEnd. -/
inductive Typ | begin | more | fin
deriving DecidableEq, Repr

/-- An upload message: HDR.Typ, HDR.CallID, HDR.StreamPart; `body` for the user's contents. -/
structure Part where
  typ : Typ
  callID : Nat
  streamPart : Nat
  body : Nat
deriving DecidableEq, Repr

/-! ### Client -/

/-- cli.go:2314-2326 `Uploader`. -/
structure Uploader where
  callID : Nat
  next : Nat := 1
  done : Bool := false
deriving DecidableEq, Repr

/-- One call of UploadMore: the contents, the `last` flag, and whether OneWaySend got the
message onto the connection (it does not when the context is already done, on shutdown, or
when the write fails). -/
structure More where
  body : Nat
  last : Bool := false
  sent : Bool := true
deriving DecidableEq, Repr

/-- cli.go:2391-2421 `UploadMore`: new state and what went out; none with `done` set is
ErrAlreadyDone. It runs under s.mut up to and including the send, so calls take effect one
after another. The number and the `done` flag advance whether or not the send works. -/
def Uploader.more (u : Uploader) (m : More) : Uploader × Option Part :=
  if u.done then (u, none)
  else
    ({ u with next := u.next + 1, done := m.last },
     if m.sent then some ⟨if m.last then .fin else .more, u.callID, u.next, m.body⟩ else none)

/-- What a series of UploadMore calls puts on the connection. -/
def Uploader.run (u : Uploader) : List More → List Part
  | [] => []
  | m :: ms => (u.more m).2.toList ++ (u.more m).1.run ms

/-- cli.go:2358-2388 `UploadBegin` (sent) and the UploadMore calls on the Uploader it returns. -/
def upload (callID body : Nat) (ms : List More) : List Part :=
  ⟨.begin, callID, 0, body⟩ :: Uploader.run { callID } ms

/-! ### Server -/

/-- What the goroutine of one upload is doing. `panicked` ends the server process: nothing
recovers in processWork. -/
inductive St | queued | running | ended | panicked
deriving DecidableEq, Repr

/-- The goroutine made for a CallUploadBegin: the message itself, the channel in
req.HDR.streamCh (nil if none), and the calls made so far of the user's function: the message
and whether `last` was given. -/
structure Work where
  req : Part
  ch : Option Nat
  got : List (Part × Bool) := []
  st : St := .queued
deriving DecidableEq, Repr

/-- The server: the in-flight table with the stream channel of each entry (nil for calls that
are not streams), the contents of all channels made, the goroutines, and the message the read
loop is stuck on, with its channel. -/
structure Srv where
  active : List (Nat × Option Nat) := []
  chans : List (List Part) := []
  works : List Work := []
  blocked : Option (Option Nat × Part) := none
deriving DecidableEq, Repr

/-- Go map lookup. -/
def lookup (m : List (Nat × Option Nat)) (k : Nat) : Option (Option Nat) :=
  (m.find? fun p => p.1 == k).map (·.2)

/-- Go `delete(m, k)`. -/
def erase (m : List (Nat × Option Nat)) (k : Nat) : List (Nat × Option Nat) :=
  m.filter fun p => p.1 ≠ k

inductive Op
  /-- The read loop gets an upload message. -/
  | arrive (p : Part)
  /-- The stuck read loop finds room in the channel. -/
  | unblock
  /-- The goroutine of an upload gets to its second registration (srv.go:1237) and starts
  beginReadStream. -/
  | start (w : Nat)
  /-- beginReadStream takes the next message; `ok`: the user's function returns no error. -/
  | take (w : Nat) (ok : Bool)
  /-- beginReadStream sees its context done. -/
  | ctxDone (w : Nat)
  /-- Another call, not a stream, registers. -/
  | other (id : Nat)
  /-- Such a call ends, or CallCancelPrevious arrives, for this id. -/
  | cancel (id : Nat)
deriving DecidableEq, Repr

/-- srv.go:825-857 `handleIncomingMessage` for upload messages, with the registration of
srv.go:2847-2905 and srv.go:1044-1087 `handleUploadParts`. `cap` is the channel's capacity,
10000. Nothing is read while the loop is stuck. The warning for a dropped part is left out. -/
def Srv.arrive (cap : Nat) (s : Srv) (p : Part) : Srv :=
  if s.blocked ≠ none then s
  else if p.typ = .begin then
    match lookup s.active p.callID with
    | none =>
      { s with active := (p.callID, some s.chans.length) :: s.active, chans := s.chans ++ [[p]],
               works := s.works ++ [⟨p, some s.chans.length, [], .queued⟩] }
    | some _ => { s with works := s.works ++ [⟨p, none, [], .queued⟩] }
  else
    match lookup s.active p.callID with
    | none => s
    | some none => { s with blocked := some (none, p) }
    | some (some c) =>
      match s.chans[c]? with
      | some q =>
        if q.length < cap then { s with chans := s.chans.set c (q ++ [p]) }
        else { s with blocked := some (some c, p) }
      | none => s

/-- srv.go:2979-3011 one round of the loop of `beginReadStream`. Go compares `msgN != req` by
address; here the messages are compared. -/
def Srv.take (s : Srv) (w : Nat) (k : Work) (ok : Bool) : Srv :=
  match k.ch with
  | none => s
  | some c =>
    match s.chans[c]? with
    | some (p :: q) =>
      let s := { s with chans := s.chans.set c q }
      if k.got = [] ∧ p ≠ k.req ∨ p.streamPart ≠ k.got.length ∨
          k.got ≠ [] ∧ p.callID ≠ k.req.callID then
        { s with works := s.works.set w { k with st := .panicked } }
      else
        let last := decide (p.typ = .fin)
        let k := { k with got := k.got ++ [(p, last)] }
        if ok = false ∨ last = true then
          { s with works := s.works.set w { k with st := .ended },
                   active := erase s.active k.req.callID }
        else { s with works := s.works.set w k }
    | _ => s

def Srv.step (cap : Nat) (s : Srv) : Op → Srv
  | .arrive p => s.arrive cap p
  | .unblock =>
    match s.blocked with
    | some (some c, p) =>
      match s.chans[c]? with
      | some q =>
        if q.length < cap then { s with chans := s.chans.set c (q ++ [p]), blocked := none } else s
      | none => s
    | _ => s
  | .start w =>
    match s.works[w]? with
    | some k =>
      if k.st = .queued then
        match lookup s.active k.req.callID with
        | some _ => { s with works := s.works.set w { k with st := .running } }
        | none =>
          { s with active := (k.req.callID, some s.chans.length) :: s.active,
                   chans := s.chans ++ [[k.req]],
                   works := s.works.set w { k with st := .running, ch := some s.chans.length } }
      else s
    | none => s
  | .take w ok =>
    match s.works[w]? with
    | some k => if k.st = .running then s.take w k ok else s
    | none => s
  | .ctxDone w =>
    match s.works[w]? with
    | some k =>
      if k.st = .running then
        { s with works := s.works.set w { k with st := .ended },
                 active := erase s.active k.req.callID }
      else s
    | none => s
  | .other id =>
    match lookup s.active id with
    | none => { s with active := (id, none) :: s.active }
    | some _ => s
  | .cancel id => { s with active := erase s.active id }

def Srv.run (cap : Nat) (s : Srv) (ops : List Op) : Srv := ops.foldl (Srv.step cap) s

end Verif.Upload

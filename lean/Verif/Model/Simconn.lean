/-
A simulated connection as a `net.Conn`: `simconn.Read`, `simconn.Write` and `simconn.Close`,
simnet_server.go:120-391, above the message network of `Verif.Model.Simnet`.

Left out: halting of the network, logging, statistics.  The mutex makes calls on one end exclude each
other (a waiting `Read` also blocks `Write`; that is not modelled).
-/

namespace Verif.Simconn

/-- A message of the network: its bytes (`JobSerz`) and the end-of-stream mark (`isEOF_RST`). -/
structure Msg where
  bytes : List UInt8
  eof : Bool
deriving DecidableEq, Repr

/-- One end: `buf` is `nextRead`, `closed` is `localClosed`.  Of the network: `inbox` are the messages
for this end that no read has met yet, in order of arrival; `waiting` is the number of reads of this end
that wait in the network although their caller has gone.  `got` and `arrived` record the bytes returned
to callers so far and the messages that have reached this end. -/
structure End where
  buf : List UInt8
  closed : Bool
  inbox : List Msg
  waiting : Nat
  got : List UInt8
  arrived : List Msg
deriving DecidableEq, Repr

/-- A new end, `newSimconn`, simnet_server.go:166-171. -/
def init : End := ⟨[], false, [], 0, [], []⟩

/-- A message reaches this end.  `dispatchReadsSends` (simnet.go:2244-2450) gives it to the oldest read
that waits: one whose caller has gone takes it and nobody ever looks at it; else it stays until a read
comes. -/
def End.arrive (s : End) (m : Msg) : End :=
  let s := { s with arrived := s.arrived ++ [m] }
  if 0 < s.waiting then { s with waiting := s.waiting - 1 }
  else { s with inbox := s.inbox ++ [m] }

/-- Which way the two `select`s of `Read` go.  `early`: the deadline passes before the network takes the
request; `late`: the network has the request, and the deadline is chosen in the second `select`. -/
inductive Way
  | normal | early | late
deriving DecidableEq, Repr

/-- The result of a call: bytes with a nil error, or bytes with an error. -/
inductive Err
  | nil | eof | deadline | closed
deriving DecidableEq, Repr

/-- `simconn.Read`, simnet_server.go:279-379, with a buffer of `k` bytes.  `none`: the call still waits.
In the case `late` with a message there, the network has completed the read but the deadline is chosen
(Go chooses among ready cases at random): the message is gone.  Simplified: a call that waits is not
overtaken by the arrival; it is made again once there is a message, which is the same. -/
def End.read (s : End) (k : Nat) (w : Way) : End × Option (List UInt8 × Err) :=
  if k = 0 then (s, some ([], .nil))
  else if s.buf ≠ [] then
    ({ s with buf := s.buf.drop k, got := s.got ++ s.buf.take k }, some (s.buf.take k, .nil))
  else if s.closed then (s, some ([], .eof))
  else
    match w with
    | .early => (s, some ([], .deadline))
    | .late =>
      match s.inbox with
      | [] => ({ s with waiting := s.waiting + 1 }, some ([], .deadline))
      | _ :: ms => ({ s with inbox := ms }, some ([], .deadline))
    | .normal =>
      match s.inbox with
      | [] => (s, none)
      | m :: ms =>
        ({ s with inbox := ms, buf := s.buf ++ m.bytes.drop k, got := s.got ++ m.bytes.take k,
                  closed := s.closed || m.eof },
          some (m.bytes.take k, if m.eof then .eof else .nil))

/-- `simconn.Write`, simnet_server.go:175-206, once the network has taken the message (`msgWrite`,
209-276): the count, the error, and the message sent.  `max` is `UserMaxPayload`. -/
def End.write (max : Nat) (s : End) (p : List UInt8) : Nat × Err × Option (List UInt8) :=
  if s.closed then (0, .closed, none)
  else if p = [] then (0, .nil, none)
  else if max < p.length then (max, .nil, some (p.take max))
  else (p.length, .nil, some p)

/-- `UserMaxPayload`, common.go:17 and 19. -/
def userMaxPayload : Nat := 1200000

/-- What happens at one end: a message arrives, or `Read` is called. -/
inductive Ev
  | arrive (m : Msg)
  | read (k : Nat) (w : Way)
deriving DecidableEq, Repr

/-- One event. -/
def step (s : End) : Ev → End
  | .arrive m => s.arrive m
  | .read k w => (s.read k w).1

/-- A sequence of events. -/
def run (s : End) (evs : List Ev) : End := evs.foldl step s

end Verif.Simconn

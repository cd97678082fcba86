/-!
# The watchdog of a circuit

Model of the goroutine of `cktPlus.startWatchdog` (`tube/watchdog.go:184-353`) with `reconnect`
(`tube/watchdog.go:366-463`), `seen` and `seenIndirect` (the times only, `tube/watchdog.go:20-30,
76-84`) and `backgroundConnectToPeer` (`tube/tube.go:15307-15340`). One circuit. Times are natural
numbers, zero is the zero time. The network is an event's argument: whether a try succeeds. The pulse
only wakes the loop, so it is not in the state. Left out: stopping the goroutine, the ticker's
period, the channel for tests, and the branch for refused connections, which a constant disables
(`dieOnConnectionRefused`, `tube/watchdog.go:12`).
-/

namespace Verif.Watchdog

/-- A try to connect: when, where to, and whether it succeeded. -/
structure Try where
  time : Nat
  addr : String
  ok : Bool
deriving DecidableEq

/-- The goroutine's variables (`tube/watchdog.go:210-228`) and the circuit's fields
(`tube/tube.go:16791-16797`): `up` is `isUp` and `atomicIsUp`, which are always set together; `last`
is `lastSeen`; `heard` is `lastSeenTm`; `req` is the address of `requestReconnect`; `pack` is the
variable of that name. `tries` is not in the code: what the network sees. -/
structure St where
  up : Bool
  last : Nat
  heard : Nat := 0
  req : Option String := none
  pack : Option String := none
  lastTry : Nat := 0
  tries : List Try := []
deriving DecidableEq

/-- The start (`tube/watchdog.go:210-221`): with a circuit it counts as up. -/
def init (ckt : Bool) (now : Nat) : St :=
  { up := ckt, last := if ckt then now else 0 }

/-- `reconnect` (`tube/watchdog.go:366-463`): no try without an address or with a pending one. On
success the request is cleared and the peer counts as heard from. The result is stored in `up` by it
and by its callers. -/
def reconnect (s : St) (addr : String) (now : Nat) (ok : Bool) : St :=
  if addr = "" ∨ addr = "pending" then { s with up := false }
  else if ok then
    { s with up := true, req := none, heard := max s.heard now, tries := s.tries ++ [⟨now, addr, true⟩] }
  else { s with up := false, tries := s.tries ++ [⟨now, addr, false⟩] }

/-- After `reconnect` in either place (`tube/watchdog.go:263-275, 327-338`). -/
def after (s : St) (now : Nat) : St :=
  { s with last := if s.up then now else s.last, lastTry := now }

/-- The top of the loop (`tube/watchdog.go:239-276`). -/
def round (s : St) (now : Nat) (ok : Bool) : St :=
  match s.req with
  | none => s
  | some addr => after (reconnect { s with req := none } addr now ok) now

/-- `refresh` (`tube/watchdog.go:192`), in nanoseconds. -/
def refresh : Nat := 2000000000

/-- `recomputeIsUp` (`tube/watchdog.go:227-236`). -/
def recompute (down : Nat) (s : St) (now : Nat) : Bool :=
  if s.last = 0 then false else decide (now - s.last < down)

/-- The tick (`tube/watchdog.go:294-339`). -/
def tick (down : Nat) (s : St) (now : Nat) (ok : Bool) : St :=
  match s.pack with
  | none => s
  | some addr =>
    let s := { s with last := max s.last s.heard }
    if recompute down s now then s
    else if now - s.lastTry < refresh then s
    else after (reconnect { s with up := false } addr now ok) now

/-- What happens. -/
inductive Event where
  | hear (t : Nat)
  | request (addr : String)
  | round (now : Nat) (ok : Bool)
  | tick (now : Nat) (ok : Bool)
deriving DecidableEq

/-- One event: `seen` and `seenIndirect` (`tube/watchdog.go:23-30, 76-84`),
`backgroundConnectToPeer` (`tube/tube.go:15322-15323`: the request before is overwritten), and the
goroutine. -/
def step (down : Nat) (s : St) : Event → St
  | .hear t => { s with heard := max s.heard t }
  | .request addr => { s with req := some addr }
  | .round now ok => round s now ok
  | .tick now ok => tick down s now ok

/-- A run. -/
def run (down : Nat) (s : St) (es : List Event) : St := es.foldl (step down) s

end Verif.Watchdog

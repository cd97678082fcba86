/-
Model of /repo/limitlsn.go, the connection-limiting listener, as a transition system
over all interleavings of goroutines.

The channel `sem` of capacity n is a counter; a step that would block is not enabled.
The type assertion `c.(*tls.Conn)` (line 74) is taken to succeed. Connections accepted
and closed at once after the listener was closed (lines 57-64) are never handed out and
never touch the semaphore; they are the step `spurious`.
-/
namespace Verif.Limit

/-- One connection handed out by Accept: whether the underlying connection was closed
and whether `releaseOnce` has fired. -/
structure Conn where
  closed : Bool
  released : Bool
deriving DecidableEq, Repr

structure St where
  n : Nat
  /-- tokens in the channel `sem` -/
  sem : Nat
  /-- the listener was closed (`done`) -/
  done : Bool
  /-- goroutines inside Accept that hold a token and wait for the inner listener -/
  accepting : Nat
  conns : List Conn
deriving DecidableEq, Repr

/-- limitlsn.go:24-30 `newTlsLimitListener`. -/
def new (n : Nat) : St := { n, sem := 0, done := false, accepting := 0, conns := [] }

inductive Ev where
  /-- a goroutine in Accept gets a token -/
  | acquire
  /-- the inner Accept returns a connection -/
  | acceptOk
  /-- the inner Accept fails -/
  | acceptErr
  /-- after close: accept-and-close loop -/
  | spurious
  /-- `Conn.Close` of the i-th connection: the inner close (line 92) -/
  | closeInner (i : Nat)
  /-- `Conn.Close` of the i-th connection: `releaseOnce.Do(release)` (line 93) -/
  | closeRelease (i : Nat)
  /-- `Close` of the listener (lines 79-83) -/
  | closeListener
deriving DecidableEq, Repr

/-- limitlsn.go:52 `release`: takes a token out, blocks on an empty channel. -/
def release (s : St) : Option St := if s.sem = 0 then none else some { s with sem := s.sem - 1 }

/-- One step; `none` when it is not enabled. The select of `acquire` (lines 43-50) may
take a token even after `done` is closed. `closeRelease i` is the second half of a call
of Close, so it needs the first half to have run. -/
def step (s : St) : Ev → Option St
  | .acquire => if s.sem < s.n then some { s with sem := s.sem + 1, accepting := s.accepting + 1 } else none
  | .acceptOk =>
    if s.accepting = 0 then none
    else some { s with accepting := s.accepting - 1, conns := s.conns ++ [⟨false, false⟩] }
  | .acceptErr =>
    if s.accepting = 0 then none
    else (release s).map fun s => { s with accepting := s.accepting - 1 }
  | .spurious => if s.done then some s else none
  | .closeInner i =>
    match s.conns[i]? with
    | none => none
    | some c => some { s with conns := s.conns.set i { c with closed := true } }
  | .closeRelease i =>
    match s.conns[i]? with
    | none => none
    | some c =>
      if ¬ c.closed then none
      else if c.released then some s
      else (release s).map fun s => { s with conns := s.conns.set i { c with released := true } }
  | .closeListener => some { s with done := true }

def run (s : St) : List Ev → Option St
  | [] => some s
  | e :: es => (step s e).bind fun s' => run s' es

end Verif.Limit

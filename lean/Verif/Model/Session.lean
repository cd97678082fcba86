/-
Model of client sessions: /repo/tube/tube.go leaderDoneEarlyOnSessionStuff (16171-16380),
cleanupAcked (16383-16410), the session part of commitWhatWeCan (10500-10550), applyNewSess,
applyEndSess, garbageCollectOldSessions (16074-16168), and of how requests travel to the log.

* The state machine is a parameter `f`: what an operation does to the store and its answer (the
  key/value store is one; that it is a function of store and operation is C32).
* Session ids are numbers, 0 is the empty id. Times are left out: a node may drop any session at
  any time (`Replay.expire`), which covers expiry by the clock and garbage collection.
* Reads answered by the leader outside the log (leaderServedLocalRead) are left out.
-/
namespace Verif.Session

/-- What the log holds. `op` is a request of a client: session, serial number, the client's
`MinSessSerialWaiting`, whether it only reads, and the operation. -/
inductive Entry (α : Type) where
  | noop
  | newSess (sid : Nat)
  | endSess (sid : Nat)
  | op (sid serial minWait : Nat) (read : Bool) (x : α)
deriving DecidableEq, Repr

/-- SessionTableEntry: `Serial2Ticket`, `MaxAppliedSerial`, `HighestSerialSeenFromClient`. -/
structure Sess (ρ : Type) where
  cache : List (Nat × ρ) := []
  maxApplied : Nat := 0
  highest : Nat := 0
deriving DecidableEq, Repr

structure Node (S ρ : Type) where
  store : S
  sess : Nat → Option (Sess ρ) := fun _ => none

variable {S α ρ : Type}

def setSess (n : Node S ρ) (sid : Nat) (e : Option (Sess ρ)) : Node S ρ :=
  { n with sess := fun s => if s = sid then e else n.sess s }

/-- tube.go:16383-16410 `cleanupAcked`. -/
def cleanup (e : Sess ρ) (below : Nat) : Sess ρ :=
  if below = 0 then e else { e with cache := e.cache.filter fun x => ¬ x.1 < below }

/-- `Serial2Ticket.Set`. -/
def setCache (e : Sess ρ) (serial : Nat) (r : ρ) : Sess ρ :=
  { e with cache := (serial, r) :: e.cache.filter fun x => x.1 ≠ serial }

/-- tube.go:10523-10536: remember the answer; on a new highest serial, drop acknowledged ones. -/
def remember (e : Sess ρ) (serial minWait : Nat) (r : ρ) : Sess ρ :=
  let e := setCache e serial r
  if e.maxApplied < serial then cleanup { e with maxApplied := serial } minWait else e

/-- tube.go:10360-10550: one entry applied. -/
def applyEntry (f : S → α → S × ρ) (n : Node S ρ) : Entry α → Node S ρ
  | .noop => n
  | .newSess sid =>
    match n.sess sid with
    | some _ => n
    | none => setSess n sid (some {})
  | .endSess sid => setSess n sid none
  | .op sid serial minWait _ x =>
    let n' : Node S ρ := { n with store := (f n.store x).1 }
    if sid = 0 then n'
    else
      match n.sess sid with
      | none => n'
      | some e => setSess n' sid (some (remember e serial minWait (f n.store x).2))

/-- The store after a log, from `s`. -/
def storeAfter (f : S → α → S × ρ) (s : S) : List (Entry α) → S
  | [] => s
  | .op _ _ _ _ x :: log => storeAfter f (f s x).1 log
  | _ :: log => storeAfter f s log

inductive Out (ρ : Type) where
  | answered (r : ρ)
  | refused
  | accepted
deriving DecidableEq, Repr

/-- A request as it reaches a leader: `lastKnown` is SessionLastKnownIndex. -/
structure Req (α : Type) where
  sid : Nat
  serial : Nat
  minWait : Nat := 0
  lastKnown : Nat := 0
  read : Bool := false
  x : α
deriving DecidableEq, Repr

def Req.entry (t : Req α) : Entry α := .op t.sid t.serial t.minWait t.read t.x

/-- tube.go:16171-16380 `leaderDoneEarlyOnSessionStuff`, at a leader that has applied `applied`
entries; `over` says that the session's time is over on the leader's clock. -/
def submit (n : Node S ρ) (applied : Nat) (over : Bool) (t : Req α) : Node S ρ × Out ρ :=
  if t.sid = 0 then (n, .accepted)
  else
    match n.sess t.sid with
    | none => (n, .refused)
    | some e =>
      if applied < t.lastKnown then (n, .refused)
      else if over then (setSess n t.sid none, .refused)
      else
        match e.cache.lookup t.serial with
        | some r => (setSess n t.sid (some (cleanup e t.minWait)), .answered r)
        | none =>
          if ¬ t.read ∧ t.serial ≤ e.maxApplied then (setSess n t.sid (some (cleanup e t.minWait)), .refused)
          else
            (setSess n t.sid (some (cleanup { e with highest := max e.highest t.serial } t.minWait)), .accepted)

/-- The states a node can be in after applying `log`: entries applied in order, and at any time a
session dropped, answers dropped that a client acknowledged, or the highest serial seen noted. -/
inductive Replay (f : S → α → S × ρ) (s0 : S) : List (Entry α) → Node S ρ → Prop
  | start : Replay f s0 [] { store := s0 }
  | apply {log n} (e : Entry α) : Replay f s0 log n → Replay f s0 (log ++ [e]) (applyEntry f n e)
  | expire {log n} (sid : Nat) : Replay f s0 log n → Replay f s0 log (setSess n sid none)
  | clean {log n e} (sid below : Nat) : Replay f s0 log n → n.sess sid = some e →
      Replay f s0 log (setSess n sid (some (cleanup e below)))
  | note {log n e} (sid serial : Nat) : Replay f s0 log n → n.sess sid = some e →
      Replay f s0 log (setSess n sid (some { e with highest := max e.highest serial }))

/-- The cluster as far as sessions are concerned: the entries committed; the leader's entries after
those; the like of other nodes that could still win an election; and whether the leader's first
entry, its noop, is committed (until then it holds requests back, tube.go:6137-6155). -/
structure Cluster (α : Type) where
  committed : List (Entry α) := []
  pending : List (Entry α) := []
  rivals : List (List (Entry α)) := []
  ready : Bool := false

/-- One step. Elections and commitment are as Raft gives them (C18-C21): a leader commits earlier
entries only together with its own noop, and from then on logs without what is committed cannot
win. Session ids are made once (the leader draws a fresh random id for each request to open one,
tube.go:16054). A leader that was replaced and does not know goes on taking requests
(`rivalAccepts`). `noRetry` forbids (if true) that a leader takes a write while its log holds a copy
it has not applied; as it applies what is committed at once, that is a copy it took itself. -/
inductive Step (f : S → α → S × ρ) (s0 : S) (noRetry : Bool) : Cluster α → Cluster α → Prop
  | elect {c σ} : σ ∈ c.rivals ∨ σ <+: c.pending →
      Step f s0 noRetry c { c with pending := σ ++ [.noop], rivals := c.pending :: c.rivals, ready := false }
  | commit {c} (k : Nat) : k ≤ c.pending.length → c.ready = true ∨ .noop ∈ c.pending.take k →
      Step f s0 noRetry c
        { committed := c.committed ++ c.pending.take k, pending := c.pending.drop k, rivals := [], ready := true }
  | newSession {c} (sid : Nat) : c.ready = true → .newSess sid ∉ c.committed ++ c.pending → sid ≠ 0 →
      Step f s0 noRetry c { c with pending := c.pending ++ [.newSess sid] }
  | endSession {c} (sid : Nat) : c.ready = true →
      Step f s0 noRetry c { c with pending := c.pending ++ [.endSess sid] }
  | accept {c a n over} {t : Req α} : c.ready = true → a ≤ c.committed.length →
      Replay f s0 (c.committed.take a) n → (submit n a over t).2 = .accepted →
      (noRetry = true → t.sid ≠ 0 → t.read = false → ∀ m x, .op t.sid t.serial m false x ∉ (c.committed ++ c.pending).drop a) →
      Step f s0 noRetry c { c with pending := c.pending ++ [t.entry] }
  | rivalAccepts {c σ a n over} {t : Req α} : σ ∈ c.rivals → a ≤ c.committed.length →
      Replay f s0 (c.committed.take a) n → (submit n a over t).2 = .accepted →
      (noRetry = true → t.sid ≠ 0 → t.read = false → ∀ m x, .op t.sid t.serial m false x ∉ (c.committed ++ σ).drop a) →
      Step f s0 noRetry c { c with rivals := (σ ++ [t.entry]) :: c.rivals }
  | rivalNewSession {c σ} (sid : Nat) : σ ∈ c.rivals → .newSess sid ∉ c.committed ++ σ → sid ≠ 0 →
      Step f s0 noRetry c { c with rivals := (σ ++ [.newSess sid]) :: c.rivals }
  | rivalEndSession {c σ} (sid : Nat) : σ ∈ c.rivals →
      Step f s0 noRetry c { c with rivals := (σ ++ [.endSess sid]) :: c.rivals }

inductive Run (f : S → α → S × ρ) (s0 : S) (noRetry : Bool) : Cluster α → Prop
  | start : Run f s0 noRetry {}
  | step {c c'} : Run f s0 noRetry c → Step f s0 noRetry c c' → Run f s0 noRetry c'

/-- What can come later. -/
inductive Steps (f : S → α → S × ρ) (s0 : S) (noRetry : Bool) : Cluster α → Cluster α → Prop
  | refl {c} : Steps f s0 noRetry c c
  | step {c c' c''} : Steps f s0 noRetry c c' → Step f s0 noRetry c' c'' → Steps f s0 noRetry c c''

end Verif.Session

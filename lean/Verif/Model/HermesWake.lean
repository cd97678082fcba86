/-!
# Timer of a Hermes node, and the queue of deadlines

Model of the fields `timeoutPQ`, `nextWakeCh`, `nextWakeTicket`, `nextWake` of a
Hermes node (`tube/hermes/hermes.go`), of the functions that change them, and of
the comparison functions of the two ticket queues (`tube/hermes/pqtree.go`,
`tube/ticketpq.go`).

Simplifications: times are nanoseconds as natural numbers, 0 stands for Go's
zero time. The queue is a list of deadline and ticket. A new deadline is the
present time plus a constant, so it is put at the end; the order among equal
deadlines (by key) is the subject of the second half and left out in the
first. What the handlers do to the stored values and what they send is in
`Verif/Model/Hermes.lean`; here they are arbitrary lists of the operations on
the queue.
-/

namespace Verif.HermesWake

/-- The queue and the timer of a node (`tube/hermes/hermes.go`, fields
`timeoutPQ`, `nextWakeCh`, `nextWake`, `nextWakeTicket`). `armed = some t`: the
channel in `nextWakeCh` fires at `t`; `none`: the channel is nil. -/
structure W where
  now : Nat
  q : List (Nat × Nat)
  armed : Option Nat
  nextWake : Nat
  ticket : Option Nat
deriving DecidableEq, Repr

/-- A node at its start (`tube/hermes/hermes.go`, `NewHermesNode`: all fields
have their zero values). -/
def init (now : Nat) : W := ⟨now, [], none, 0, none⟩

/-- Ten microseconds (`tube/hermes/hermes.go:1670`). -/
def slack : Nat := 10000

/-- The three assignments that turn the timer off
(`tube/hermes/hermes.go:1678-1680`, also 1245-1247). -/
def off (s : W) : W := { s with armed := none, nextWake := 0, ticket := none }

/-- `setWakeup` (`tube/hermes/hermes.go:1660-1681`). -/
def setWakeup (s : W) : W :=
  match s.q with
  | [] => off s
  | (d, i) :: _ =>
    if d ≠ 0 ∧ s.nextWake < d then
      { s with nextWake := d + slack, armed := some (d + slack), ticket := some i }
    else off s

/-- `deleteTicket` (`tube/hermes/hermes.go:1206-1250`) as far as the queue and
the timer go. -/
def remove (id : Nat) (s : W) : W :=
  let s1 := { s with q := s.q.filter (fun e => e.2 != id) }
  if s1.ticket = some id then setWakeup (off s1) else s1

/-- `actionAbRecordPending` (`tube/hermes/hermes.go:207-265`): a ticket that is in
the queue gets the new deadline (`pq.update`), a ticket that has been taken out
is deleted and added again, a new one is added. `T` is
`cfg.MessageLossTimeout`. -/
def record (T : Nat) (id : Nat) (s : W) : W :=
  if s.q.any (fun e => e.2 == id) then
    { s with q := s.q.filter (fun e => e.2 != id) ++ [(s.now + T, id)] }
  else
    let s1 := remove id s
    { s1 with q := s1.q ++ [(s1.now + T, id)] }

/-- `unblockReadsFor` (`tube/hermes/hermes.go:1173-1203`) of a key that has
tickets; `ids` are those that are reads. -/
def unblock (ids : List Nat) (s : W) : W :=
  let s1 := ids.foldl (fun s id =>
    let s2 := remove id s
    if s2.ticket = some id then { s2 with ticket := none } else s2) s
  if s1.ticket = none then
    setWakeup { s1 with armed := none, nextWake := 0 }
  else s1

/-- What a handler of a message or of a timeout may do to the queue. -/
inductive Op where
  /-- `actionAbRecordPending` without `setWakeup` (acknowledgements that come
  before their invalidation, `tube/hermes/hermes.go:1289, 1332`; `actionBR`). -/
  | record (id : Nat)
  /-- `deleteTicket`. -/
  | remove (id : Nat)
  /-- `unblockReadsFor`. -/
  | unblock (ids : List Nat)
deriving DecidableEq, Repr

/-- One operation. -/
def op (T : Nat) : Op → W → W
  | .record id, s => record T id s
  | .remove id, s => remove id s
  | .unblock ids, s => unblock ids s

/-- The operations of one handler, in order. -/
def ops (T : Nat) (os : List Op) (s : W) : W := os.foldl (fun s o => op T o s) s

/-- The loop of `checkCoordOrFollowerFailed` (`tube/hermes/hermes.go:1564-1657`):
take out what is past its deadline and handle it. `h` gives what the handler of
a ticket does. The clock is read once (the code reads it for each ticket). The
first argument bounds the rounds; `fire` gives it the length of the queue, and
every round takes out one ticket. -/
def fireLoop (T : Nat) (h : Nat → List Op) : Nat → W → W
  | 0, s => s
  | n + 1, s =>
    match s.q with
    | [] => s
    | (d, i) :: r =>
      if s.now < d then s
      else fireLoop T h n (ops T (h i) { s with q := r })

/-- `checkCoordOrFollowerFailed` (`tube/hermes/hermes.go:1557-1658`): the channel
and the ticket of the timer are cleared, its time is not; `setWakeup` is
deferred. -/
def fire (T : Nat) (h : Nat → List Op) (s : W) : W :=
  setWakeup (fireLoop T h s.q.length { s with armed := none, ticket := none })

/-- Events at a node (`tube/hermes/hermes.go:2160-2230`, the main select). -/
inductive Ev where
  /-- time goes on -/
  | tick (dt : Nat)
  /-- a read or write that has to wait (`readReq` 594, `writeReq` 740: recorded,
  then the deferred `setWakeup`) -/
  | request (id : Nat)
  /-- a write that does not have to wait (`setWakeup` is deferred all the same) -/
  | poke
  /-- a message from another node -/
  | message (os : List Op)
  /-- the timer's channel is read; only if it is set and its time has come -/
  | wake (h : Nat → List Op)

/-- One event. -/
def step (T : Nat) (s : W) : Ev → W
  | .tick dt => { s with now := s.now + dt }
  | .request id => setWakeup (record T id s)
  | .poke => setWakeup s
  | .message os => ops T os s
  | .wake h =>
    match s.armed with
    | none => s
    | some t => if t ≤ s.now then fire T h s else s

/-- A run. -/
def run (T : Nat) (s : W) (es : List Ev) : W := es.foldl (step T) s

/-! ## Comparison functions -/

/-- An item of the Hermes queue (`tube/hermes/pqtree.go:28-31`): deadline, key and
TicketID of its ticket. Strings are lists of bytes. -/
structure Item where
  deadline : Nat
  key : List Nat
  id : List Nat
deriving DecidableEq, Repr

/-- The comparison of `newPqTime` (`tube/hermes/pqtree.go:60-92`). The first test,
for the same pointer, is left out: the same item has the same TicketID, which
gives 0 too. The third comparison is of a's TicketID with itself, as in the
code. -/
def cmpHermes (a b : Item) : Int :=
  if a.deadline = b.deadline then
    if a.key = b.key then
      if a.id = b.id then 0
      else if a.id < a.id then -1
      else 1
    else if a.key < b.key then -1
    else 1
  else if a.deadline < b.deadline then -1
  else 1

/-- A ticket of tube, as far as its queue goes (`tube/ticketpq.go:61-105`). -/
structure Tkt where
  t0 : Nat
  id : List Nat
  session : List Nat
deriving DecidableEq, Repr

/-- The comparison of `newTicketPQ` (`tube/ticketpq.go:65-104`); `none` is a nil
pointer. The test for the same pointer is left out, as above. -/
def cmpTube : Option Tkt → Option Tkt → Int
  | none, none => 0
  | none, some _ => -1
  | some _, none => 1
  | some a, some b =>
    if a.t0 < b.t0 then -1
    else if a.t0 > b.t0 then 1
    else if a.id < b.id then -1
    else if a.id > b.id then 1
    else if a.session < b.session then -1
    else if a.session > b.session then 1
    else 0

/-- A search tree (the package github.com/glycerine/rbtree is not part of the
repository; colours are left out). -/
inductive Tree (α : Type) where
  | nil
  | node (l : Tree α) (v : α) (r : Tree α)
deriving Repr

/-- Search as in `DeleteWithKey` and `FindGE_isEqual` (used in
`tube/hermes/pqtree.go:259, 266`): compare the item with the node's. -/
def find {α : Type} (cmp : α → α → Int) (x : α) : Tree α → Option α
  | .nil => none
  | .node l v r =>
    if cmp x v = 0 then some v
    else if cmp x v < 0 then find cmp x l
    else find cmp x r

/-- Insertion at the place where the search ends, before any rotation (used in
`tube/hermes/pqtree.go:127`). -/
def insert {α : Type} (cmp : α → α → Int) (x : α) : Tree α → Tree α
  | .nil => .node .nil x .nil
  | .node l v r =>
    if cmp x v = 0 then .node l v r
    else if cmp x v < 0 then .node (insert cmp x l) v r
    else .node l v (insert cmp x r)

/-- Rotation to the left at the root, by which the tree is balanced. -/
def rotL {α : Type} : Tree α → Tree α
  | .node a v (.node b w c) => .node (.node a v b) w c
  | t => t

/-- Rotation to the right at the root. -/
def rotR {α : Type} : Tree α → Tree α
  | .node (.node a v b) w c => .node a v (.node b w c)
  | t => t

/-- The items of a tree from left to right. -/
def items {α : Type} : Tree α → List α
  | .nil => []
  | .node l v r => items l ++ v :: items r

end Verif.HermesWake

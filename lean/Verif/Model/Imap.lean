/-
Model of /repo/tube/imap.go, the pending tickets indexed by id and by log index.

Tickets are pointers whose LogIndex is changed by other code; a ticket is identified with
its TicketID (all callers pass tktID = tkt.TicketID, e.g. tube.go `WaitingAtLeader.set(tkt.TicketID, tkt)`)
and `idx` gives its current LogIndex. `ordered` (an Omap) is a list of
(key, ticket) sorted by key; `awaitIndex` (an Omap) and `m` (a Go map) are lists of ids.
The order of awaitIndex only matters when two tickets share a LogIndex.
-/
namespace Verif.Imap

structure Imap where
  /-- current LogIndex of every ticket object -/
  idx : String → Nat
  ordered : List (Nat × String)
  m : List String
  await : List String

/-- imap.go:23-29 `newImap`. -/
def new (idx : String → Nat) : Imap := { idx, ordered := [], m := [], await := [] }

/-- omap.go `Set` on the ordered map: upsert by key, keeping key order. -/
def oset (k : Nat) (v : String) : List (Nat × String) → List (Nat × String)
  | [] => [(k, v)]
  | (k', v') :: r =>
    if k < k' then (k, v) :: (k', v') :: r
    else if k = k' then (k, v) :: r
    else (k', v') :: oset k v r

/-- omap.go `Delkey`. -/
def odel (k : Nat) (l : List (Nat × String)) : List (Nat × String) := l.filter fun e => !decide (e.1 = k)

/-- Insert an id into a set of ids. -/
def sset (v : String) (l : List String) : List String := if v ∈ l then l else v :: l

def sdel (v : String) (l : List String) : List String := l.filter fun e => !decide (e = v)

/-- imap.go:64-86 `set`. -/
def set (s : Imap) (id : String) : Imap :=
  let s :=
    if s.idx id > 0 then { s with ordered := oset (s.idx id) id s.ordered }
    else { s with await := sset id s.await }
  { s with m := sset id s.m }

/-- imap.go:45-54 `del`. -/
def del (s : Imap) (id : String) : Imap :=
  if id ∈ s.m then
    { s with ordered := odel (s.idx id) s.ordered, await := sdel id s.await, m := sdel id s.m }
  else s

/-- imap.go:89-92 `get2` (found flag). -/
def get2 (s : Imap) (id : String) : Bool := decide (id ∈ s.m)

/-- imap.go:99-115, body of the loop of `repair`. -/
def repairOne (s : Imap) (id : String) : Imap :=
  if id ∈ s.m then
    if s.idx id > 0 then { s with ordered := oset (s.idx id) id s.ordered, await := sdel id s.await }
    else s
  else { s with await := sdel id s.await }

/-- imap.go:99-115 `repair`. The loop deletes only the element it is at, which the ordered
map's iteration is meant to allow (see C35 for when it does). -/
def repair (s : Imap) : Imap := s.await.foldl repairOne s

/-- imap.go:117-120 `all`: the tickets in the order yielded, and the repaired map. -/
def all (s : Imap) : List (Nat × String) × Imap := ((repair s).ordered, repair s)

/-- Calls on the map, and the assignment of a log index to a ticket by other code. -/
inductive Op where
  | set (id : String)
  | del (id : String)
  | assign (id : String) (k : Nat)
  | iterate
deriving DecidableEq, Repr

def step (s : Imap) : Op → Imap
  | .set id => set s id
  | .del id => del s id
  | .assign id k => { s with idx := fun i => if i = id then k else s.idx i }
  | .iterate => repair s

end Verif.Imap

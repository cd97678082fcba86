/-
Model of /repo/tube/pongpq.go, the leader's record of the last pong of every peer.
Times are naturals, 0 being Go's zero time. The red-black tree (an external package) is
a list kept sorted by the same comparison. `none` is a panic.
-/
namespace Verif.Pong

/-- tube.go `Pong`: RecvTm and PeerID; the name is only printed. -/
structure Pong where
  tm : Nat
  peer : String
deriving DecidableEq, Repr

/-- pongpq.go:159-185, the comparison given to the tree (as "a sorts strictly before b"):
newest first, ties by peer id. -/
def before (a b : Pong) : Bool :=
  if a.tm > b.tm then true
  else if a.tm < b.tm then false
  else decide (a.peer < b.peer)

/-- Tree insertion; an item comparing equal is refused (`none`). -/
def insert (p : Pong) : List Pong → Option (List Pong)
  | [] => some [p]
  | q :: qs =>
    if before p q then some (p :: q :: qs)
    else if before q p then (insert p qs).map (q :: ·)
    else none

/-- pongpq.go:119-134 `delPeerID`. -/
def delPeerID (peer : String) (t : List Pong) : List Pong := t.filter fun q => !decide (q.peer = peer)

/-- pongpq.go:93-104 `add`. -/
def add (t : List Pong) (p : Pong) : Option (List Pong) :=
  if p.tm = 0 then none
  else insert p (delPeerID p.peer t)

/-- Result of `quorumPongTm`: the current time with ok (no peers, or no quorum asked
for), not ok, or a recorded time with ok. -/
inductive QRes where
  | now
  | notEnough
  | at (tm : Nat)
deriving DecidableEq, Repr

/-- pongpq.go:37-75 `quorumPongTm(quor)`; `none` for the panics at the end. -/
def quorumPongTm (t : List Pong) (quor : Int) : Option QRes :=
  if t.length = 0 ∨ quor < 1 then some .now
  else if quor > t.length then some .notEnough
  else
    match t[quor.toNat - 1]? with
    | none => none
    | some p => if p.tm = 0 then none else some (.at p.tm)

/-- All pongs of a history, in order of arrival. -/
def addAll (t : List Pong) : List Pong → Option (List Pong)
  | [] => some t
  | p :: ps => (add t p).bind fun t' => addAll t' ps

end Verif.Pong

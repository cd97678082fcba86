/-
Model of the client sessions a node knows: the part of /repo/tube/tube.go that keeps SessTable, sessByExpiry and
sessTableByClientName, and /repo/tube/sess.go.

* A SessionTableEntry is shared by pointer between the three; `heap` gives the entry for a pointer.
* Times are numbers, 0 the zero time. Ids and names are numbers.
* The red-black tree is the list of its items in order. A search finds what compares equal; since the items are in order
  this is the same as looking at all of them.
* Left out: the answers kept per session (Session, C33), and everything else an entry does when it is applied.
-/
namespace Verif.SessTable

/-- tube.go:5840-5875, SessionTableEntry, and Session where it is created from. -/
structure Ste where
  id : Nat
  client : Nat
  t0 : Nat
  dur : Nat
  endx : Nat
deriving DecidableEq, Repr

/-- SessTable (tube.go:2930), sessByExpiry (tube.go:3390), sessTableByClientName, LastAppliedLogHLC as a time (tube.go:2969). -/
structure Node where
  heap : Nat → Ste := fun _ => ⟨0, 0, 0, 0, 0⟩
  next : Nat := 0
  table : Nat → Option Nat := fun _ => none
  byName : Nat → Option Nat := fun _ => none
  tree : List Nat := []
  lhlc : Nat := 0

/-- Go's map store and delete, and a store through a pointer (as in tube.go:16121, 16159, 17832). -/
def upd {β : Type} (f : Nat → β) (x : Nat) (v : β) : Nat → β := fun y => if y = x then v else f y

/-- sess.go:26-62: by SessionEndxTm, then by SessionID. -/
def before (h : Nat → Ste) (p q : Nat) : Bool :=
  (h p).endx < (h q).endx || ((h p).endx == (h q).endx && (h p).id < (h q).id)

/-- sess.go:26-62: neither is before the other. -/
def same (h : Nat → Ste) (p q : Nat) : Bool := (h p).endx == (h q).endx && (h p).id == (h q).id

/-- rbtree Insert: nothing happens when an equal item is there. -/
def treeAdd (h : Nat → Ste) (p : Nat) : List Nat → List Nat
  | [] => [p]
  | q :: l => if before h p q then p :: q :: l else if same h p q then q :: l else q :: treeAdd h p l

/-- sess.go:19-21 Delete. -/
def treeDel (h : Nat → Ste) (p : Nat) (l : List Nat) : List Nat := l.filter (fun q => !same h p q)

/-- tube.go:17823-17836 refreshSession. -/
def refresh (s : Node) (p from_ : Nat) : Node :=
  let t := treeDel s.heap p s.tree
  let h := upd s.heap p { (s.heap p) with endx := from_ + (s.heap p).dur }
  { s with heap := h, tree := treeAdd h p t }

/-- tube.go:2996-3012, the loop of updateSessTableByClientName: the table by name, and those to go. -/
def nameOne (h : Nat → Ste) (r : (Nat → Option Nat) × List Nat) (p : Nat) : (Nat → Option Nat) × List Nat :=
  match r.1 (h p).client with
  | none => (upd r.1 (h p).client (some p), r.2)
  | some q =>
    if q = p then r
    else if (h p).t0 ≤ (h q).t0 then (r.1, r.2 ++ [p])
    else (upd r.1 (h p).client (some p), r.2 ++ [q])

/-- tube.go:3013-3016, one of those to go. -/
def dropOne (s : Node) (p : Nat) : Node :=
  { s with table := upd s.table (s.heap p).id none, tree := treeDel s.heap p s.tree }

/-- tube.go:2986-3018 updateSessTableByClientName. `scan`: what is looked at, in the order of the map. -/
def updateNames (s : Node) (scan : List Nat) : Node :=
  let r := scan.foldl (nameOne s.heap) (s.byName, [])
  r.2.foldl dropOne { s with byName := r.1 }

/-- tube.go:16092-16098 and 16160-16165: a session that is removed is no longer the one of its client. -/
def forgetName (h : Nat → Ste) (b : Nat → Option Nat) (client id : Nat) : Nat → Option Nat :=
  match b client with
  | some q => if (h q).id = id then upd b client none else b
  | none => b

/-- tube.go:16156-16165, one session removed by garbageCollectOldSessions. -/
def gcOne (s : Node) (p : Nat) : Node :=
  let e := s.heap p
  { s with
    table := upd s.table e.id none
    byName := forgetName s.heap s.byName e.client e.id }

/-- tube.go:16138-16167 garbageCollectOldSessions: from the first on, up to one that has not ended. -/
def gc (s : Node) : Node :=
  let dead := s.tree.takeWhile (fun p => decide ((s.heap p).endx ≤ s.lhlc))
  dead.foldl gcOne { s with tree := s.tree.drop dead.length }

/-- tube.go:16108-16135 applyNewSess with newSessionTableEntry (5966-5987), without the clean-up. The leader has set T0 to its clock
and SessionIndexEndxTm to that plus the duration (16045-16072). -/
def applyNew (s : Node) (id client t0 dur : Nat) : Node :=
  match s.table id with
  | some _ => s
  | none =>
    let p := s.next
    let h := upd s.heap p ⟨id, client, t0, dur, t0 + dur⟩
    updateNames { s with heap := h, next := p + 1, table := upd s.table id (some p), tree := treeAdd h p s.tree } [p]

/-- tube.go:16075-16103 applyEndSess, without the clean-up. -/
def applyEnd (s : Node) (id : Nat) : Node :=
  match s.table id with
  | none => s
  | some p =>
    { s with
      table := upd s.table id none
      tree := treeDel s.heap p s.tree
      byName := forgetName s.heap s.byName (s.heap p).client id }

/-- tube.go:17714-17718 in applyNewStateSnapshot: the sessions of the sender, cloned (3056-3059, 5899-5922: SessionEndxTm is not copied),
come as new entries; the tree stays as it is. -/
def install (s : Node) (l : List Ste) : Node :=
  let h := fun p => if s.next ≤ p then (match l[p - s.next]? with
    | some e => { e with endx := 0 }
    | none => s.heap p) else s.heap p
  let ptrs := (List.range l.length).map (s.next + ·)
  updateNames { s with heap := h, next := s.next + l.length, table := ptrs.foldl (fun t p => upd t (h p).id (some p)) (fun _ => none) } ptrs

/-- What becomes of a request in a session at the leader, as far as the session goes, tube.go:16197-16250. -/
inductive Verdict where
  | unknown | timedOut | accepted
deriving DecidableEq, Repr

/-- tube.go:16197-16250 leaderDoneEarlyOnSessionStuff, the lookup and the comparison with the leader's clock. -/
def verdict (s : Node) (id now : Nat) : Verdict :=
  match s.table id with
  | none => .unknown
  | some p => if (s.heap p).endx ≤ now then .timedOut else .accepted

/-- tube.go:16236-16250: a session that has timed out is removed from the table and the tree. -/
def check (s : Node) (id now : Nat) : Node :=
  match s.table id with
  | none => s
  | some p => if (s.heap p).endx ≤ now then { s with table := upd s.table id none, tree := treeDel s.heap p s.tree } else s

/-- What changes the sessions of a node; the places in tube.go are at each case. -/
inductive Action where
  /-- SESS_NEW applied (commitWhatWeCan, tube.go:10332, 10486, 10549); `hlc` is the time LastAppliedLogHLC takes if it is later. -/
  | new (id client t0 dur hlc : Nat)
  /-- SESS_END applied. -/
  | close (id hlc : Nat)
  /-- An entry of a session applied, logged by the leader at `tm` (tube.go:10500-10549). -/
  | use (id tm hlc : Nat)
  /-- An entry without a session applied. -/
  | other (hlc : Nat)
  /-- leaderServedLocalRead (tube.go:11716-11733). -/
  | read (id now : Nat)
  /-- leaderDoneEarlyOnSessionStuff. -/
  | check (id now : Nat)
  /-- Election timeout at the leader (tube.go:1560). -/
  | tick
  /-- A snapshot from another node is taken over (tube.go:17714-17718); the order of the list is that of the map. -/
  | snapshot (l : List Ste)
  /-- tube.go:4422, 9294: the state is loaded, the tree is new and the table by name is not part of the state. -/
  | restart

/-- tube.go:10331-10332. Simplified: of the clock's ReceiveMessageWithHLC (HLC, C08) the later time only. -/
def reach (s : Node) (hlc : Nat) : Node := { s with lhlc := max s.lhlc hlc }

/-- tube.go:10331-10549 commitWhatWeCan for applied entries; the others are the functions named at the actions. applyNewSess and applyEndSess
clean up on the leader once more (16133, 16102), which the clean-up at 10549 covers. -/
def step (s : Node) : Action → Node
  | .new id client t0 dur hlc => gc (applyNew (reach s hlc) id client t0 dur)
  | .close id hlc => gc (applyEnd (reach s hlc) id)
  | .use id tm hlc =>
    match s.table id with
    | none => reach s hlc
    | some p => gc (refresh (reach s hlc) p tm)
  | .other hlc => gc (reach s hlc)
  | .read id now =>
    match s.table id with
    | none => s
    | some p => refresh s p now
  | .check id now => check s id now
  | .tick => gc s
  | .snapshot l => install s l
  | .restart => { s with tree := [], byName := fun _ => none }

/-- The actions one after the other: one goroutine does all of them (Start, tube.go). -/
def run (s : Node) (l : List Action) : Node := l.foldl step s

end Verif.SessTable

import Verif.Model.Wire
/-
Model of several goroutines sending on one connection.

Source: /repo/common.go:323-386 (`workspace.sendMessage`: lock `w.wmut`, three
`writeFull` calls, unlock), /repo/chacha.go:381-529 (`encoder.sendMessage`: lock
`e.mut`, one `writeFull`, unlock), /repo/srv.go:506 and 649 (the server makes two
blabbers, hence two mutexes, for one connection), srv.go:594 (send loop sends
with one), srv.go:1281, 1663, 3097, 3112 (replies use the other, each from its
own goroutine), /repo/cli.go:622, 748, 784 (client sends only from its send
loop).

One `writeFull` is one atomic step: a Go `net.Conn` serialises `Write` calls and
does not return short without an error.
-/
namespace Verif.SendLock
open Verif.Wire

/-- A message as it is handed to the connection: the buffers written one after
the other while the mutex is held. -/
abbrev Writes := List Bytes

/-- One sending goroutine: which mutex its blabber uses, the messages it has still
to send, and the buffers left of the message it is sending (it holds the mutex
while this is `some`). -/
structure Sender where
  lock : Nat
  todo : List Writes
  cur : Option Writes
deriving DecidableEq, Repr

/-- All senders on one connection, the holder of each mutex, and the bytes
written so far. -/
structure St where
  senders : Nat → Sender
  held : Nat → Option Nat
  wire : Bytes

/-- Sender `i` gets to run for one step: it takes its mutex if that is free, or
writes one buffer, or gives the mutex back. -/
def step (s : St) (i : Nat) : St :=
  let t := s.senders i
  match t.cur with
  | none =>
    match t.todo with
    | [] => s
    | m :: ms =>
      if s.held t.lock = none then
        { s with
          senders := fun j => if j = i then { t with todo := ms, cur := some m } else s.senders j
          held := fun l => if l = t.lock then some i else s.held l }
      else s
  | some [] =>
    { s with
      senders := fun j => if j = i then { t with cur := none } else s.senders j
      held := fun l => if l = t.lock then none else s.held l }
  | some (w :: ws) =>
    { s with
      senders := fun j => if j = i then { t with cur := some ws } else s.senders j
      wire := s.wire ++ w }

/-- A schedule is the list of senders in the order they get to run. -/
def run (s : St) (schedule : List Nat) : St := schedule.foldl step s

/-- Before anything is sent. `lockOf i` is the mutex of sender i, `msgs i` what it
will send. -/
def start (lockOf : Nat → Nat) (msgs : Nat → List Writes) : St where
  senders i := { lock := lockOf i, todo := msgs i, cur := none }
  held _ := none
  wire := []

/-- Every sender has sent everything. -/
def allSent (s : St) : Prop := ∀ i, (s.senders i).todo = [] ∧ (s.senders i).cur = none

end Verif.SendLock

import Verif.Model.Pump
/-
Vocabulary for the statements about peer circuits (C106-C110): what was delivered, what arrived.
-/
namespace Verif.Pump

open Verif.Frag

/-- Everything ever delivered on a circuit: what the user has received, then what waits in the
channel. -/
def Ckt.delivered (k : Ckt) : List Fragment := k.got ++ k.reads

/-- The same for its Errors channel. -/
def Ckt.deliveredErr (k : Ckt) : List Fragment := k.gotErr ++ k.errors

/-- The fragments a list of messages carries for the circuit with this id; a message that ends the
circuit carries none. -/
def sentTo (id : Str) (l : List Message) : List Fragment :=
  (l.filter (fun m => m.callID == id && m.typ != callPeerEndCircuit)).map convertMessageToFragment

/-- The error fragments a list of messages carries for the circuit with this id. -/
def errorsTo (id : Str) (l : List Message) : List Fragment :=
  (l.filter (fun m => m.callID == id)).map convertMessageToFragment

/-- No two circuits opened at the peer have the same id. -/
def UniqueIds (s : State) : Prop := (s.ckts.map Ckt.id).Nodup

/-- Neither of the two timers that discard a fragment has fired. -/
def keeps : Action → Bool
  | .drop _ => false
  | .timeout5 => false
  | _ => true

/-- The circuit is open: opened, and its context not cancelled. -/
def Ckt.isOpen (k : Ckt) : Bool := !k.canc

/-- The messages the pump has sent for a circuit id. -/
def toldAbout (s : State) (id : Str) : List Message := s.out.filter (fun m => m.callID == id)

/-- Where a peer starts: no circuits, nothing arrived, nothing sent. -/
def Fresh (s : State) : Prop :=
  s.ckts = [] ∧ s.m = [] ∧ s.readsIn = [] ∧ s.errorsIn = [] ∧ s.phase = .idle ∧ s.out = [] ∧
    s.arrived = [] ∧ s.arrivedErr = [] ∧ s.stop = false

/-- The steps of the stalled user, and of whoever stops the peer. -/
def Action.frees (c : Nat) : Action → Bool
  | .readErr d => d == c
  | .reqClose d _ => d == c
  | .reqStop => true
  | _ => false

end Verif.Pump

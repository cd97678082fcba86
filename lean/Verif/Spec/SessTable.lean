import Verif.Model.SessTable
/-
What users may expect of sessions: a ledger of the sessions there are, with the time at which each of them ends.
-/
namespace Verif.SessTable

structure Rec where
  client : Nat
  dur : Nat
  ends : Nat
deriving DecidableEq, Repr

/-- The sessions there are and the time that has been reached. -/
structure Ledger where
  known : Nat → Option Rec := fun _ => none
  clock : Nat := 0

def Ledger.at_ (L : Ledger) (t : Nat) : Ledger := { L with clock := max L.clock t }

/-- Those that have ended are struck off. -/
def Ledger.strike (L : Ledger) : Ledger :=
  { L with known := fun id => (L.known id).filter (fun r => decide (L.clock < r.ends)) }

/-- A request in a session gives it its full duration again. -/
def Ledger.extend (L : Ledger) (id t : Nat) : Ledger :=
  { L with known := fun j => if j = id then (L.known id).map (fun r => { r with ends := t + r.dur }) else L.known j }

/-- A new session takes the place of any other one of the same client. -/
def Ledger.open_ (L : Ledger) (id client t0 dur : Nat) : Ledger :=
  { L with known := fun j => if j = id then some ⟨client, dur, t0 + dur⟩ else (L.known j).filter (fun r => decide (r.client ≠ client)) }

def Ledger.remove (L : Ledger) (id : Nat) : Ledger := { L with known := fun j => if j = id then none else L.known j }

def Ledger.step (L : Ledger) : Action → Ledger
  | .new id client t0 dur hlc => if (L.known id).isSome then (L.at_ hlc).strike else ((L.at_ hlc).open_ id client t0 dur).strike
  | .close id hlc => ((L.at_ hlc).remove id).strike
  | .use id tm hlc => if (L.known id).isSome then ((L.at_ hlc).extend id tm).strike else L.at_ hlc
  | .other hlc => (L.at_ hlc).strike
  | .read id now => L.extend id now
  | .check id now => match L.known id with
    | none => L
    | some r => if r.ends ≤ now then L.remove id else L
  | .tick => L.strike
  | .snapshot l => { L with known := fun id => (l.find? (fun e => e.id == id)).map (fun e => ⟨e.client, e.dur, e.endx⟩) }
  | .restart => L

def Ledger.run (L : Ledger) (l : List Action) : Ledger := l.foldl Ledger.step L

/-- What the node knows. -/
def Node.known (s : Node) (id : Nat) : Option Rec :=
  (s.table id).map (fun p => ⟨(s.heap p).client, (s.heap p).dur, (s.heap p).endx⟩)

/-- Created by an entry among `l`. -/
def Made (l : List Action) (id client t0 : Nat) : Prop := ∃ dur hlc, .new id client t0 dur hlc ∈ l

/-- Ids are never used twice, and a later session of a client has a later creation time. -/
def Orderly : List Action → Prop
  | [] => True
  | a :: l => (match a with
      | .new id client t0 _ _ => ∀ id' client' t0', Made l id' client' t0' → id' ≠ id ∧ (client' = client → t0 < t0')
      | _ => True) ∧ Orderly l

/-- Neither a snapshot nor a restart. -/
def Action.plain : Action → Bool
  | .snapshot _ => false
  | .restart => false
  | _ => true

end Verif.SessTable

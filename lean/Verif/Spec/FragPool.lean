import Verif.Model.FragPool
/-
Vocabulary for C111 and C113.
-/
namespace Verif.FragPool

open Verif.Frag

/-- The fragment an operation is about. -/
def Op.target : Op → Option Nat
  | .new _ => none
  | .write p _ => some p
  | .free p => some p
  | .send p _ _ _ _ _ => some p
  | .issue => none

/-- Callers touch, send and give back only fragments that are theirs. -/
def Disciplined (s : State) : List Op → Prop
  | [] => True
  | op :: ops => (∀ p, op.target = some p → p ∈ s.held) ∧ Disciplined (step s op) ops

instance (s : State) (op : Op) : Decidable (∀ p, op.target = some p → p ∈ s.held) :=
  match h : op.target with
  | none => .isTrue (fun _ e => by cases e)
  | some q =>
    if hq : q ∈ s.held then .isTrue (fun _ e => by cases e; exact hq)
    else .isFalse (fun f => hq (f q rfl))

instance decDisciplined (s : State) : (ops : List Op) → Decidable (Disciplined s ops)
  | [] => .isTrue trivial
  | op :: ops =>
    have := decDisciplined (step s op) ops
    inferInstanceAs (Decidable ((∀ p, op.target = some p → p ∈ s.held) ∧
      Disciplined (step s op) ops))

/-- A fragment with nothing in it but a sender name and a serial. -/
def blank (peerName : Str) (serial : Nat) : Fragment := { serial := serial, fromPeerName := peerName }

end Verif.FragPool

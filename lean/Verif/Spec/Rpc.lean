import Verif.Model.Rpc
/-
What C51 speaks about.
-/
namespace Verif.Rpc

/-- Sequence numbers chosen by the application rather than by the library: those of messages
the server program sends of its own accord, and those a client program sets on a one-way
message that can be answered. -/
def chosen : Op → Option Nat
  | .push m => some m.seqno
  | .oneWay kind _ preset _ => if preset ≠ 0 ∧ kind ≠ .silent then some preset else none
  | _ => none

/-- The server answered the request of call `h` of these contents with `m`. -/
def Answered (s : Sys) (h : Nat) (c : Call) (m : Msg) : Prop :=
  ∃ r, (r, m) ∈ s.answers ∧ r.origin = some h ∧ r.kind = .rpc ∧
    r.callID = c.callID ∧ r.body = c.body

/-- Call `h` is on its way: given number `q`, not yet completed. -/
def Waiting (s : Sys) (h q : Nat) : Prop :=
  (∃ c, s.calls[h]? = some c ∧ c.seqno = some q ∧ c.outcome = none) ∧
    ∀ d, (h, d) ∉ s.cli.done

end Verif.Rpc

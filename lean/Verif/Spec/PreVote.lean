import Verif.Model.PreVote
/- Vocabulary of C126 and C127. -/
namespace Verif.Raft

/-- An action that involves only nodes of Q: it happens at one of them, and a message delivered comes from one. -/
def Within (Q : List Nat) (s : Sys) : Action → Prop
  | .timeout v _ | .preVote v | .stepDown v | .client v _ | .send v _ _ | .join v _ | .leave v _ | .crash v => v ∈ Q
  | .deliver v k _ _ _ _ => v ∈ Q ∧ ∃ m, s.msgs[k]? = some m ∧ m.src.1 ∈ Q

/-- The log ending in (lastTerm, length) is as up to date as the other: what a voter asks for. -/
def AsUpToDate (a b : List Entry) : Prop :=
  lastTerm b < lastTerm a ∨ (lastTerm b = lastTerm a ∧ b.length ≤ a.length)

/-- Using only nodes of Q, node v can become leader and commit these commands: they follow its present log and the
leader's first entry, all applied. -/
def CanCommit (mem Q : List Nat) (s : Sys) (v : Nat) (cmds : List Nat) : Prop :=
  ∃ as s', run mem s as = some s' ∧ (∀ pre a post s1, as = pre ++ a :: post → run mem s pre = some s1 → Within Q s1 a) ∧
    (s'.nodes v).role = .leader ∧
    ∃ noop, (s'.nodes v).log = (s.nodes v).log ++ (noop :: cmds).map (fun c => ⟨(s'.nodes v).term, c⟩) ∧
      (s'.nodes v).log.length ≤ (s'.nodes v).applied

end Verif.Raft

namespace Verif.PreVote

open Raft (Node Sys PeerID ReqVote Vote Msg Entry)

/-- The name of the sender. -/
def PMsg.src : PMsg → PeerID
  | .req m => m.src
  | .ans m => m.src

/-- An action that involves only nodes of Q. -/
def Within (Q : List Nat) (s : PSys) : PAction → Prop
  | .raft a => Raft.Within Q s.base a
  | .timer v _ _ _ => v ∈ Q
  | .elect v _ => v ∈ Q
  | .deliver v k _ _ _ => v ∈ Q ∧ ∃ m, s.pmsgs[k]? = some m ∧ m.src.1 ∈ Q

/-- A schedule of Q alone. -/
def AllWithin (mem Q : List Nat) (s : PSys) (as : List PAction) : Prop :=
  ∀ pre a post s1, as = pre ++ a :: post → run mem s pre = some s1 → Within Q s1 a

/-- As `Raft.CanCommit`, with pre-votes. -/
def CanCommit (mem Q : List Nat) (s : PSys) (v : Nat) (cmds : List Nat) : Prop :=
  ∃ as s', run mem s as = some s' ∧ AllWithin mem Q s as ∧ (s'.base.nodes v).role = .leader ∧
    ∃ noop, (s'.base.nodes v).log =
        (s.base.nodes v).log ++ (noop :: cmds).map (fun c => ⟨(s'.base.nodes v).term, c⟩) ∧
      (s'.base.nodes v).log.length ≤ (s'.base.nodes v).applied

/-- More than half of the members. -/
def Majority (mem Q : List Nat) : Prop := Q.Nodup ∧ Q ⊆ mem ∧ mem.length < 2 * Q.length

/-- What C126 says of one state: some member of the majority can lead and commit. -/
def Progress (mem Q : List Nat) (s : PSys) : Prop := ∀ cmds, ∃ v ∈ Q, CanCommit mem Q s v cmds

/-- Nothing is delivered to `v`. -/
def NotHeard (v : Nat) : PAction → Prop
  | .raft (.deliver w _ _ _ _ _) => w ≠ v
  | .deliver w _ _ _ _ => w ≠ v
  | _ => True

/-- A member that no other member of Q is ahead of: in term, in the version of the configuration, or in its log. -/
structure Best (Q : List Nat) (s : Sys) (v : Nat) : Prop where
  mem : v ∈ Q
  term : ∀ q ∈ Q, (s.nodes q).term ≤ (s.nodes v).term
  mc : ∀ q ∈ Q, (s.nodes q).mcTerm ≤ (s.nodes v).mcTerm
  log : ∀ q ∈ Q, Raft.AsUpToDate (s.nodes v).log (s.nodes q).log

/-- Two nodes that are followers, have on disk what they have in memory, and have asked each other nothing yet: `a` has the
higher term, `b` the newer log. -/
structure Crossed (s : PSys) (a b : Nat) : Prop where
  ne : a ≠ b
  role : ∀ v, v = a ∨ v = b → (s.base.nodes v).role = .follower
  saved : ∀ v, v = a ∨ v = b →
    (s.base.nodes v).saved.term = (s.base.nodes v).term ∧ (s.base.nodes v).saved.mcTerm = (s.base.nodes v).mcTerm
  term : (s.base.nodes b).term < (s.base.nodes a).term
  log : ¬ Raft.AsUpToDate (s.base.nodes a).log (s.base.nodes b).log
  msgs : ∀ m ∈ s.base.msgs, m.src.1 = a ∨ m.src.1 = b → m.toward a = false ∧ m.toward b = false
  reqs : ∀ m, PMsg.req m ∈ s.pmsgs → m.src.1 ≠ a ∧ m.src.1 ≠ b
  answers : ∀ m, PMsg.ans m ∈ s.pmsgs → m.cand.1 ≠ a ∧ m.cand.1 ≠ b
  pv : s.pv a = {} ∧ s.pv b = {}

end Verif.PreVote

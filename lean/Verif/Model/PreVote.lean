import Verif.Model.Raft
/-
Model of the pre-vote phase that comes before every election, /repo/tube/tube.go: beginPreVote, handleRequestPreVote,
tallyPreVote, the second waiting period and resetPreVoteState, on top of Model/Raft (whose `timeout` is then allowed only
when the phase has been passed).

* As in Model/Raft all nodes are members, clocks are flags, and messages may come at any time, any number of times.
* Shadow replicas, and nodes without a configuration, are left out. `testBeginElection` is for tests.
* A deadline that has not passed yet is a flag (`live1`, `live2`), a circuit to the voter in place another (`alive`).
-/
namespace Verif.PreVote

open Raft (Node Sys PeerID ReqVote Vote Msg Event Action upd quorum lastTerm)

/-- tube.go:3283-3294: preVoteTerm, preVotes by their answer, preVoteOkLeaderElecTerm. The latter is 0 exactly when
preVoteOkLeaderElecDeadline is zero and preVoteOkLeaderElecTimeoutCh nil: the three are set and reset together. -/
structure PV where
  pterm : Nat := 0
  yes : List Nat := []
  no : List Nat := []
  eterm : Nat := 0
deriving DecidableEq, Repr

/-- RequestVote and Vote with IsPreVote. -/
inductive PMsg where
  | req (m : ReqVote)
  | ans (m : Vote)
deriving DecidableEq, Repr

structure PSys where
  base : Sys := {}
  pv : Nat → PV := fun _ => {}
  pmsgs : List PMsg := []

/-- tube.go:7005-7027: record one answer, by name. (The own one is recorded under the PeerID, 11127; it is sent only in
a cluster of one, where counting it twice makes no difference.) -/
def countPre (me : Nat) (n : Node) (pv : PV) (m : Vote) (alive : Bool) : PV :=
  if m.cand = (me, n.inc) ∧ m.src.1 ∉ pv.yes ∧ m.src.1 ∉ pv.no ∧ (alive = true ∨ m.src = (me, n.inc)) then
    if m.granted then { pv with yes := pv.yes ++ [m.src.1] } else { pv with no := pv.no ++ [m.src.1] }
  else pv

/-- tube.go:7029-7073. -/
def decidePre (mem : List Nat) (nofault : Bool) (pv : PV) : PV :=
  if quorum mem nofault ≤ pv.yes.length then { pv with pterm := 0, eterm := pv.pterm }
  else if quorum mem nofault ≤ pv.no.length then {}
  else if mem.length ≤ pv.yes.length + pv.no.length then {}
  else pv

/-- tube.go:6919-7075 `tallyPreVote`. `{}` is resetPreVoteState (11651). -/
def tallyPreVote (mem : List Nat) (me : Nat) (n : Node) (pv : PV) (m : Vote) (alive nofault : Bool) : PV :=
  if m.term ≠ pv.pterm then pv
  else if n.role = .leader ∨ n.role = .candidate then pv
  else if pv.pterm ≠ n.term + 1 then {}
  else if n.mcTerm < m.mcTerm then pv
  else if m.src.1 ∉ mem then pv
  else decidePre mem nofault (countPre me n pv m alive)

/-- tube.go:11051-11215 `beginPreVote` of a follower: the new pre-vote state and the request sent. -/
def beginPreVote (mem : List Nat) (me : Nat) (n : Node) (pv : PV) (live1 live2 nofault : Bool) : PV × List PMsg :=
  let t := n.term + 1
  if ((0 < pv.pterm ∧ live1 = true) ∨ (0 < pv.eterm ∧ live2 = true)) ∧ ¬ (pv.pterm < t ∧ pv.eterm < t) then (pv, [])
  else
    let pv := { pterm := t, yes := [me] }
    if mem.length ≤ 1 then
      (tallyPreVote mem me n pv ⟨(me, n.inc), n.term, (me, n.inc), t, true, n.mcTerm⟩ true nofault, [])
    else (pv, [.req ⟨(me, n.inc), t, n.log.length, lastTerm n.log, n.mcTerm⟩])

/-- Whether an event resets the pre-vote state of the node (`n` before, `n'` after it): becomeFollower (6590),
beginElection (6691), becomeLeader (7251), handleAppendEntries (8125), a restart. In tallyVote a change of term or role
is one of the first three. -/
def resets (n n' : Node) : Event → Bool
  | .timeout _ => true
  | .preVote => false
  | .stepDown => true
  | .recv (.reqVote m) _ sticky _ _ => decide (n.term < m.term ∧ n.role ≠ .leader ∧ sticky = false)
  | .recv (.vote m) _ _ _ _ => decide (n.term < m.term ∨ n'.role ≠ n.role)
  | .recv (.ae m) _ _ _ _ => decide (1 ≤ m.term ∧ n.term ≤ m.term)
  | .recv (.ack m) _ _ _ _ => decide (n.term < m.term)
  | .client _ => false
  | .send _ _ => false
  | .join _ => false
  | .leave _ => false
  | .crash => true

inductive PAction where
  /-- any action of Model/Raft but `timeout` and `preVote` -/
  | raft (a : Action)
  /-- electionTimeoutCh at a node that is not leader, tube.go:1392-1598 -/
  | timer (v : Nat) (live1 live2 nofault : Bool)
  /-- preVoteOkLeaderElecTimeoutCh, tube.go:1358-1390 -/
  | elect (v noop : Nat)
  /-- pre-vote message number `k` arrives at `v` -/
  | deliver (v k : Nat) (sticky alive nofault : Bool)
deriving DecidableEq, Repr

/-- The node after `beginPreVote` has made a candidate a follower again, tube.go:11072-11083. -/
def demote (mem : List Nat) (s : Sys) (v : Nat) : Sys :=
  if (s.nodes v).role = .candidate then s.put mem v { s.nodes v with role := .follower } [] else s

/-- One event at one node; `none` when it cannot happen, or does nothing. -/
def step (mem : List Nat) (s : PSys) : PAction → Option PSys
  | .raft (.timeout _ _) => none
  | .raft (.preVote _) => none
  | .raft a =>
    match a.event s.base, Raft.step mem s.base a with
    | some (v, e), some b =>
      some { s with base := b, pv := if resets (s.base.nodes v) (b.nodes v) e then upd s.pv v {} else s.pv }
    | _, _ => none
  | .timer v live1 live2 nofault =>
    if v ∈ mem ∧ (s.base.nodes v).role ≠ .leader then
      let b := demote mem s.base v
      let r := beginPreVote mem v (b.nodes v) (s.pv v) live1 live2 nofault
      some { base := b, pv := upd s.pv v r.1, pmsgs := s.pmsgs ++ r.2 }
    else none
  | .elect v noop =>
    if (s.base.nodes v).role = .follower ∧ (s.pv v).pterm = 0 ∧ (s.pv v).eterm ≠ 0 ∧
        (s.pv v).eterm = (s.base.nodes v).term + 1 then
      (Raft.step mem s.base (.timeout v noop)).map fun b => { s with base := b, pv := upd s.pv v {} }
    else none
  | .deliver v k sticky alive nofault =>
    if v ∈ mem then
      match s.pmsgs[k]? with
      | some (.req m) =>
        if m.src.1 ≠ v then
          some { s with pmsgs := s.pmsgs ++ [.ans (Raft.handleRequestPreVote v (s.base.nodes v) m sticky).2] }
        else none
      | some (.ans m) =>
        if m.cand.1 = v then
          some { s with pv := upd s.pv v (tallyPreVote mem v (s.base.nodes v) (s.pv v) m alive nofault) }
        else none
      | none => none
    else none

def run (mem : List Nat) (s : PSys) : List PAction → Option PSys
  | [] => some s
  | a :: as => (step mem s a).bind fun s' => run mem s' as

end Verif.PreVote

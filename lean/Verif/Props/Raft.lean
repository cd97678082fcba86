import Verif.Proofs.RaftMain
import Verif.Proofs.RaftNode
/- C18-C23: elections, log matching, safety of applied entries, votes and pre-votes. -/
namespace Verif.Raft

/-- Delivery of message `k` to `v`, no clock-dependent flag set. -/
abbrev d (v k : Nat) : Action := .deliver v k 0 false false false

/-- Three nodes: 1 is elected, commits a client's entry, crashes; 2 is elected, commits its own. -/
def sampleRun : List Action :=
  [.timeout 1 0, d 2 0, d 1 1, .client 1 [7], .send 1 1 2, d 2 2, d 1 3, .send 1 1 2, d 2 4, d 3 4,
   .crash 1, .timeout 2 0, d 3 7, d 2 8, .client 2 [9], .send 2 1 4, d 3 9, d 1 9, d 2 10, d 2 11,
   .send 2 0 0, d 1 12, d 3 12]

def final (mem : List Nat) (as : List Action) : Sys := (run mem {} as).getD {}

example : (run [1, 2, 3] {} sampleRun).isSome = true := by decide +kernel

/-! ## C18 -/

/-- Two leaders of the same term, at any two moments of any execution, are the same process. -/
theorem C18_one_leader_per_term (mem : List Nat) (as bs : List Action) (s s' : Sys) (u v : Nat)
    (h1 : run mem {} as = some s) (h2 : run mem s bs = some s')
    (hu : (s.nodes u).role = .leader) (hv : (s'.nodes v).role = .leader)
    (ht : (s.nodes u).term = (s'.nodes v).term) :
    u = v ∧ (s.nodes u).inc = (s'.nodes v).inc := by
  have I := inv1_run as (inv1_init mem) h1
  obtain ⟨I', he, _⟩ := run_mono bs I h2
  obtain ⟨Q, hQ⟩ := I.leaderEl u hu
  obtain ⟨Q', hQ'⟩ := I'.leaderEl v hv
  have := I'.elUniq _ _ _ _ _ (he _ hQ) (ht ▸ hQ')
  exact ⟨congrArg Prod.fst this, congrArg Prod.snd this⟩

/-- 1 leads term 1, later 2 leads term 2. -/
example : ((final [1, 2, 3] (sampleRun.take 10)).nodes 1).role = .leader ∧
    ((final [1, 2, 3] (sampleRun.take 10)).nodes 1).term = 1 ∧
    ((final [1, 2, 3] sampleRun).nodes 2).role = .leader ∧
    ((final [1, 2, 3] sampleRun).nodes 2).term = 2 := by decide +kernel

/-! ## C19 -/

/-- Logs of any two nodes at any two moments of any execution: an entry with the same index
and term means the same entries up to there. -/
theorem C19_log_matching (mem : List Nat) (as bs : List Action) (s s' : Sys) (u v i : Nat)
    (a b : Entry) (h1 : run mem {} as = some s) (h2 : run mem s bs = some s')
    (ha : (s.nodes u).log[i]? = some a) (hb : (s'.nodes v).log[i]? = some b)
    (ht : a.term = b.term) :
    (s.nodes u).log.take (i + 1) = (s'.nodes v).log.take (i + 1) := by
  have I := inv1_run as (inv1_init mem) h1
  obtain ⟨I', _, hL⟩ := run_mono bs I h2
  exact (hL _ (I.logOK u)).agree (I'.logOK v) ha hb ht

example : ((final [1, 2, 3] (sampleRun.take 10)).nodes 3).log[1]? = some ⟨1, 7⟩ ∧
    ((final [1, 2, 3] sampleRun).nodes 2).log = [⟨1, 0⟩, ⟨1, 7⟩, ⟨2, 0⟩, ⟨2, 9⟩] ∧
    ((final [1, 2, 3] sampleRun).nodes 1).log = [⟨1, 0⟩, ⟨1, 7⟩, ⟨2, 0⟩, ⟨2, 9⟩] := by decide +kernel

/-! ## C20 -/

/-- The full claim for one execution. -/
def AppliedAgree (s : Sys) : Prop :=
  ∀ u v i e f, (u, i, e) ∈ s.hist.applied → (v, i, f) ∈ s.hist.applied → e = f

/-- Missing: executions violating one of the three side conditions, none of which the code
enforces; the three counterexamples below show that each is needed. -/
theorem C20_applied_entries_agree_partial (mem : List Nat) (as : List Action) (s : Sys)
    (h : run mem {} as = some s) (h1 : AllSteps FullSend mem {} as)
    (h3 : AllSteps OneRecord mem {} as) (h4 : AllSteps AckOfTerm mem {} as) : AppliedAgree s := by
  obtain ⟨I, I2, I3⟩ := inv_run as inv0_init (inv1_init mem) (inv2_init mem) (inv3_init mem)
    (careful_of as {} h1 h3 h4) h
  intro u v i e f hu hv
  exact applied_agree I2 I3 hu hv

example : AllSteps FullSend [1, 2, 3] {} sampleRun ∧
    AllSteps OneRecord [1, 2, 3] {} sampleRun ∧ AllSteps AckOfTerm [1, 2, 3] {} sampleRun := by
  decide +kernel

example : (final [1, 2, 3] sampleRun).hist.applied.map (fun x => (x.1, x.2.1)) =
    [(1, 1), (1, 2), (2, 1), (2, 2), (3, 1), (3, 2), (2, 3), (2, 4), (1, 3), (1, 4), (3, 3), (3, 4)] := by
  decide +kernel

/-- Crashes that lose a term are covered: 3 stands for term 1, is lost before saving it, and
comes back in term 0. -/
example : let as := [.timeout 3 0, .crash 3] ++ sampleRun.map fun
      | .deliver v k noop a b c => .deliver v (k + 1) noop a b c
      | x => x
    ((final [1, 2, 3] (as.take 1)).nodes 3).term = 1 ∧ ((final [1, 2, 3] (as.take 2)).nodes 3).term = 0 ∧
    (final [1, 2, 3] as).hist.applied.length = 12 ∧
    AllSteps FullSend [1, 2, 3] {} as ∧ AllSteps OneRecord [1, 2, 3] {} as ∧
    AllSteps AckOfTerm [1, 2, 3] {} as := by
  decide +kernel

/-- Two nodes applied different entries at the same index. -/
def Disagree (s : Sys) : Prop := ∃ x ∈ s.hist.applied, ∃ y ∈ s.hist.applied, x.2.1 = y.2.1 ∧ x.2.2 ≠ y.2.2

instance (s : Sys) : Decidable (Disagree s) := by unfold Disagree; infer_instance

theorem Disagree.not_agree {s : Sys} (h : Disagree s) : ¬ AppliedAgree s := by
  obtain ⟨x, hx, y, hy, h1, h2⟩ := h
  intro ha
  exact h2 (ha x.1 y.1 x.2.1 x.2.2 y.2.2 hx (by rw [h1]; exact hy))

theorem get_run {mem : List Nat} {as : List Action} (h : (run mem {} as).isSome = true) :
    run mem {} as = some (final mem as) := by
  unfold final
  cases hr : run mem {} as with
  | none => rw [hr] at h; cases h
  | some s => rfl

/-- 2 holds a longer log with an unreplicated tail of a later term; 3, leader of a still later
term, sends it only its first entry; the positive answer carries 2's own log length, which 3
counts as stored. -/
def partialSendRun : List Action :=
  [.timeout 1 0, d 2 0, d 1 1, .send 1 1 1, d 2 2, d 3 2, .timeout 2 0, d 3 5, d 2 6, .client 2 [7],
   .stepDown 1, .timeout 3 0, d 1 7, d 3 8, .client 3 [8], .send 3 1 1, d 2 9, d 3 10, .timeout 2 0,
   d 1 11, d 2 12, .send 2 1 4, d 1 13, d 2 14]

/-- 2 acknowledges, restarts and acknowledges again: two records, counted as two members. -/
def twoRecordsRun : List Action :=
  [.timeout 1 0, d 2 0, d 3 0, d 1 1, d 1 2, .send 1 1 1, d 2 3, .crash 2, d 2 3, .join 1 (2, 1),
   d 1 5, d 1 4, .stepDown 1, .timeout 3 9, d 4 6, d 5 6, d 3 7, d 3 8, .send 3 1 1, d 4 9, d 5 9,
   d 3 10, d 3 11]

/-- 2 answers a delayed message of 1's first leadership with its present term; 1, leader again
in that term, counts the answer for its present log. -/
def staleAckRun : List Action :=
  [.timeout 1 0, d 3 0, d 4 0, d 1 1, d 1 2, .client 1 [5], .send 1 1 2, d 2 3, .timeout 3 0, d 4 5,
   d 5 5, d 3 6, d 3 7, .send 3 1 1, d 1 8, .timeout 5 0, d 2 10, d 2 3, .stepDown 3, .timeout 1 0,
   d 3 13, d 4 13, d 1 14, d 1 15, d 1 12, .send 1 1 2, d 4 16, d 1 17, .timeout 3 0, d 2 18, d 5 18,
   d 3 19, d 3 20, .send 3 1 2, d 2 21, d 5 21, d 3 22, d 3 23]

/-- The claim fails when a leader may send less than its whole remaining log. -/
theorem C20_counterexample_partial_send : ∃ as s, run [1, 2, 3] {} as = some s ∧ ¬ AppliedAgree s ∧
    AllSteps OneRecord [1, 2, 3] {} as ∧
    AllSteps AckOfTerm [1, 2, 3] {} as :=
  ⟨partialSendRun, _, get_run (by decide +kernel), Disagree.not_agree (by decide +kernel),
    by decide +kernel, by decide +kernel⟩

/-- The claim fails when a restarted node is recorded twice. -/
theorem C20_counterexample_two_records : ∃ as s, run [1, 2, 3, 4, 5] {} as = some s ∧
    ¬ AppliedAgree s ∧ AllSteps FullSend [1, 2, 3, 4, 5] {} as ∧
    AllSteps AckOfTerm [1, 2, 3, 4, 5] {} as :=
  ⟨twoRecordsRun, _, get_run (by decide +kernel), Disagree.not_agree (by decide +kernel),
    by decide +kernel, by decide +kernel⟩

/-- The claim fails when answers to messages of an earlier term are counted. -/
theorem C20_counterexample_stale_ack : ∃ as s, run [1, 2, 3, 4, 5] {} as = some s ∧
    ¬ AppliedAgree s ∧ AllSteps FullSend [1, 2, 3, 4, 5] {} as ∧
    AllSteps OneRecord [1, 2, 3, 4, 5] {} as :=
  ⟨staleAckRun, _, get_run (by decide +kernel), Disagree.not_agree (by decide +kernel),
    by decide +kernel, by decide +kernel⟩

/-! ## C21 -/

/-- For every node state: the commit index never decreases; if it moves, the new index is in
the log and holds an entry of the current term; the log is not touched. -/
theorem C21_commit_within_log (mem : List Nat) (n : Node) (nofault : Bool) :
    n.commit ≤ (leaderAdvanceCommitIndex mem n nofault).commit ∧
    (leaderAdvanceCommitIndex mem n nofault).log = n.log ∧
    ((leaderAdvanceCommitIndex mem n nofault).commit ≠ n.commit →
      ∃ e, n.log[(leaderAdvanceCommitIndex mem n nofault).commit - 1]? = some e ∧
        0 < (leaderAdvanceCommitIndex mem n nofault).commit ∧ e.term = n.term) := by
  rcases leaderAdvance_cases mem n nofault with h | ⟨i, _, h0, h1, h2, h3, h⟩
  · rw [h]; exact ⟨Nat.le_refl _, rfl, fun hx => (hx rfl).elim⟩
  · have c := commitWhatWeCan_eq { n with commit := i }
    rw [← h] at c
    rw [c.2.2.1, c.2.2.2.2.2.2.2.2]
    refine ⟨Nat.le_of_lt h1, rfl, fun _ => ⟨n.log[i - 1], by simp, h0, ?_⟩⟩
    rw [← h3]
    unfold termAt terms
    rw [if_neg (by omega), List.getElem?_map, List.getElem?_eq_getElem (by omega)]
    rfl

/-- A new commit index is backed by a majority of the members, each the leader itself or
recorded at or above it. Missing: a leader outside the membership, and two records of one
node; the code prevents neither (counterexamples below). -/
theorem C21_commit_needs_majority_partial (mem : List Nat) (me : Nat) (n : Node) (nofault : Bool)
    (hm : me ∈ mem) (hnd : (n.peers.map (·.1.1)).Nodup) (hself : ∀ x ∈ n.peers, x.1.1 ≠ me)
    (hc : (leaderAdvanceCommitIndex mem n nofault).commit ≠ n.commit) :
    ∃ Q : List Nat, Q.Nodup ∧ Q ⊆ mem ∧ mem.length < 2 * Q.length ∧
      ∀ u ∈ Q, u = me ∨ ∃ x ∈ n.peers, x.1.1 = u ∧
        (leaderAdvanceCommitIndex mem n nofault).commit ≤ x.2 := by
  rcases leaderAdvance_cases mem n nofault with h | ⟨i, hi, h0, h1, h2, h3, h⟩
  · rw [h] at hc; exact (hc rfl).elim
  · have c := commitWhatWeCan_eq { n with commit := i }
    rw [← h] at c
    rw [c.2.2.2.2.2.2.2.2]
    obtain ⟨q1, q2, q3⟩ := backers_quor hm ⟨hnd, hself⟩ hi
    refine ⟨_, q1, q2, q3, ?_⟩
    intro u hu
    unfold backers at hu
    rcases List.mem_cons.1 hu with rfl | hu
    · exact Or.inl rfl
    · right
      rw [List.mem_map] at hu
      obtain ⟨x, hx, rfl⟩ := hu
      have hx' := List.mem_filter.1 hx
      simp at hx'
      exact ⟨x, hx'.1, rfl, hx'.2.2⟩

/-- A leader of five that has heard from two. -/
def sampleLeader : Node :=
  { role := .leader, term := 2, log := [⟨1, 0⟩, ⟨2, 0⟩, ⟨2, 5⟩], commit := 1,
    peers := [((2, 0), 3), ((3, 1), 2), ((4, 0), 0)] }

example : (sampleLeader.peers.map (·.1.1)).Nodup ∧ (∀ x ∈ sampleLeader.peers, x.1.1 ≠ 1) ∧
    (leaderAdvanceCommitIndex [1, 2, 3, 4, 5] sampleLeader false).commit = 2 := by decide +kernel

/-- What C21 asks of a leader `me`. -/
def BackedByMajority (mem : List Nat) (me : Nat) (n : Node) (c : Nat) : Prop :=
  ∃ Q : List Nat, Q.Nodup ∧ Q ⊆ mem ∧ mem.length < 2 * Q.length ∧
    ∀ u ∈ Q, u = me ∨ ∃ x ∈ n.peers, x.1.1 = u ∧ c ≤ x.2

theorem not_backed {mem : List Nat} {me : Nat} {n : Node} {c : Nat} (B : List Nat)
    (h : ∀ u ∈ mem, (u = me ∨ ∃ x ∈ n.peers, x.1.1 = u ∧ c ≤ x.2) → u ∈ B)
    (hB : 2 * B.length ≤ mem.length) : ¬ BackedByMajority mem me n c := by
  rintro ⟨Q, hn, hs, hl, hq⟩
  have hsub : Q ⊆ B := fun u hu => h u (hs hu) (hq u hu)
  have := (List.subperm_of_subset hn hsub).length_le
  omega

/-- In a reachable state the leader of five commits an index that only it and one other
member have stored: the other is recorded twice, as two processes. -/
theorem C21_counterexample_two_records :
    ∃ as s s', run [1, 2, 3, 4, 5] {} as = some s ∧ step [1, 2, 3, 4, 5] s (d 1 4) = some s' ∧
      (s.nodes 1).role = .leader ∧ (s.nodes 1).commit = 0 ∧ (s'.nodes 1).commit = 1 ∧
      ¬ BackedByMajority [1, 2, 3, 4, 5] 1 (s'.nodes 1) 1 := by
  refine ⟨twoRecordsRun.take 11, _, final [1, 2, 3, 4, 5] (twoRecordsRun.take 12),
    get_run (by decide +kernel), ?_, by decide +kernel, by decide +kernel, by decide +kernel,
    not_backed [1, 2] (by decide +kernel) (by decide)⟩
  have h := get_run (mem := [1, 2, 3, 4, 5]) (as := twoRecordsRun.take 12) (by decide +kernel)
  have h' := get_run (mem := [1, 2, 3, 4, 5]) (as := twoRecordsRun.take 11) (by decide +kernel)
  have e : twoRecordsRun.take 12 = twoRecordsRun.take 11 ++ [d 1 4] := by decide
  have split : ∀ (as : List Action) (a : Action) (s0 s1 s2 : Sys), run [1, 2, 3, 4, 5] s0 as = some s1 →
      run [1, 2, 3, 4, 5] s0 (as ++ [a]) = some s2 → step [1, 2, 3, 4, 5] s1 a = some s2 := by
    intro as
    induction as with
    | nil =>
      intro a s0 s1 s2 h1 h2
      cases h1
      simp only [List.nil_append, run, Option.bind_eq_some_iff] at h2
      obtain ⟨x, hx, h3⟩ := h2
      cases h3; exact hx
    | cons b bs ih =>
      intro a s0 s1 s2 h1 h2
      simp only [List.cons_append, run, Option.bind_eq_some_iff] at h1 h2
      obtain ⟨x, hx, h3⟩ := h1
      obtain ⟨y, hy, h4⟩ := h2
      rw [hx] at hy; cases hy
      exact ih a x s1 s2 h3 h4
  rw [e] at h
  exact split _ _ _ _ _ h' h

/-- A leader that is not a member counts itself: with one of three members recorded, it commits. -/
theorem C21_counterexample_leader_not_member :
    (leaderAdvanceCommitIndex [1, 2, 3]
      { role := .leader, term := 1, log := [⟨1, 0⟩], peers := [((1, 0), 1)] } false).commit = 1 ∧
    ¬ BackedByMajority [1, 2, 3] 9
      { role := .leader, term := 1, log := [⟨1, 0⟩], peers := [((1, 0), 1)] } 1 :=
  ⟨by decide +kernel, not_backed [1] (by decide +kernel) (by decide)⟩

/-! ## C22 -/

/-- However one node is messaged, timed out, crashed and restarted, from whatever state: it
never grants votes to two candidates in one term. -/
theorem C22_one_vote_per_term (mem : List Nat) (me : Nat) (n₀ : Node) (es : List Event) (n : Node)
    (sent : List Msg) (h : nodeRun mem me n₀ [] es = some (n, sent)) (m m' : Vote)
    (h1 : Msg.vote m ∈ sent) (h2 : Msg.vote m' ∈ sent) (g1 : m.granted = true)
    (g2 : m'.granted = true) (ht : m.term = m'.term) : m.cand = m'.cand :=
  (VoteInv.run es (n := n₀) (sent := []) ⟨by simp, by simp⟩ h).2 m m' h1 h2 g1 g2 ht

/-- A vote is granted only to a candidate whose log is not behind the voter's: its last entry
has a later term, or the same term and no smaller index. -/
theorem C22_voter_log_not_ahead (me : Nat) (n : Node) (q : ReqVote) (sticky : Bool)
    (h : (handleRequestVote me n q sticky).2.granted = true) (e : Entry)
    (he : n.log.getLast? = some e) :
    e.term < q.lastTerm ∨ e.term = q.lastTerm ∧ n.log.length ≤ q.lastIdx :=
  (requestVote_granted h).2.2.2.2.2 e he

/-- A vote granted goes to the asker, for the term asked for, which is not below the voter's;
the vote is on disk before it is sent. -/
theorem C22_vote_is_saved (me : Nat) (n : Node) (q : ReqVote) (sticky : Bool)
    (h : (handleRequestVote me n q sticky).2.granted = true) :
    (handleRequestVote me n q sticky).2.cand = q.src ∧
    (handleRequestVote me n q sticky).2.term = q.term ∧ n.term ≤ q.term ∧
    (handleRequestVote me n q sticky).1.saved.term = q.term ∧
    (handleRequestVote me n q sticky).1.saved.vote = some q.src := by
  obtain ⟨g1, g2, g3, _, g5, _⟩ := requestVote_granted h
  rw [g2] at g3
  have ht : (handleRequestVote me n q sticky).1.term = q.term := g2
  have : (handleRequestVote me n q sticky).1.saved.term = q.term := by
    have := g3.1; have := g3.2.1; omega
  exact ⟨g1, g2, g5, this, g3.2.2.1 this⟩

/-- Every step of the cluster model is a step of the one-node model. -/
theorem C22_applies_to_cluster (mem : List Nat) (s s' : Sys) (a : Action)
    (h : step mem s a = some s') :
    ∃ v ev n' ms, a.event s = some (v, ev) ∧ v ∈ mem ∧ nodeStep mem v (s.nodes v) ev = some (n', ms) ∧
      s' = s.put mem v n' ms := step_node h

/-- A vote for one candidate, a crash, then requests of the same term by another candidate and
again by the first. -/
def sampleVotes : List Event :=
  [.recv (.reqVote ⟨(2, 0), 5, 3, 4, 0⟩) 0 false false false, .crash,
   .recv (.reqVote ⟨(3, 0), 5, 3, 4, 0⟩) 0 false false false,
   .recv (.reqVote ⟨(2, 0), 5, 3, 4, 0⟩) 0 false false false]

example : (nodeRun [1, 2, 3] 1 {} [] sampleVotes).map (·.2) =
    some [.vote ⟨(1, 0), 0, (2, 0), 5, true, 0⟩, .vote ⟨(1, 1), 5, (3, 0), 5, false, 0⟩,
      .vote ⟨(1, 1), 5, (2, 0), 5, true, 0⟩] := by decide +kernel

/-! ## C23 -/

/-- A pre-vote request leaves the node as it was. -/
theorem C23_prevote_changes_nothing (me : Nat) (n : Node) (q : ReqVote) (sticky : Bool) :
    (handleRequestPreVote me n q sticky).1 = n := rfl

/-- A pre-vote is granted only if a vote request of the same candidate, arriving instead,
would have been granted. -/
theorem C23_prevote_implies_vote (me : Nat) (n : Node) (q : ReqVote) (sticky : Bool)
    (h : (handleRequestPreVote me n q sticky).2.granted = true) :
    (handleRequestVote me n q sticky).2.granted = true ∧
    (handleRequestVote me n q sticky).2.cand = q.src := by
  have hg : (if n.role = .leader ∨ sticky then false else if q.term ≤ n.term then false
    else logUpToDateAsOurs n q) = true := h
  split at hg; · cases hg
  split at hg; · cases hg
  rename_i h1 h2
  refine ⟨?_, rfl⟩
  have ha : logUpToDateAsOurs (becomeFollower n q.term q.mcTerm false) q = true := by
    unfold logUpToDateAsOurs at hg ⊢
    have e : (becomeFollower n q.term q.mcTerm false).mcTerm = max n.mcTerm q.mcTerm ∧
        (becomeFollower n q.term q.mcTerm false).term = q.term ∧
        (becomeFollower n q.term q.mcTerm false).log = n.log := by
      have : n.term < q.term ∨ n.mcTerm < q.mcTerm := Or.inl (by omega)
      unfold becomeFollower
      rw [if_pos this]
      exact ⟨rfl, rfl, rfl⟩
    rw [e.1, e.2.1, e.2.2]
    split at hg; · cases hg
    split at hg; · cases hg
    rw [if_neg (by omega), if_neg (by omega)]
    exact hg
  show (if q.term < n.term then (n, false)
    else if n.role = .leader ∨ sticky then (save n, false)
    else if n.term < q.term then decideVote (becomeFollower n q.term q.mcTerm false) q
    else if n.vote ≠ none ∧ n.vote ≠ some q.src then (n, false)
    else decideVote n q).2 = true
  rw [if_neg (by omega), if_neg h1, if_pos (by omega)]
  unfold decideVote
  rw [if_pos ha]

example : (handleRequestPreVote 1 { term := 3, vote := some (1, 0), log := [⟨1, 0⟩, ⟨2, 4⟩] }
    ⟨(2, 0), 4, 2, 2, 0⟩ false).2.granted = true := by decide

end Verif.Raft

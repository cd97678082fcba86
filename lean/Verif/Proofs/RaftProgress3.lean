import Verif.Proofs.PreVote
/- Without pre-votes no reachable state is a dead end (C126). -/
namespace Verif.Raft

def Any : Action → Prop := fun _ => True

section
variable {mem Q : List Nat}

theorem Path.inv0 {P : Action → Prop} {s s' : Sys} (h : Path P mem Q s s') (hi : Inv0 s) : Inv0 s' := by
  induction h with
  | refl => exact hi
  | tail _ _ _ hs ih =>
    obtain ⟨v, n', ms, t, rfl⟩ := step_tr hs
    have g := inv0_of_tr ih t
    exact inv0_put ih g.1 g.2

theorem Path.done {P : Action → Prop} {s s' : Sys} (h : Path P mem Q s s') (hi : ∀ u, Done (s.nodes u)) :
    ∀ u, Done (s'.nodes u) := by
  induction h with
  | refl => exact hi
  | tail _ _ _ hs ih =>
    obtain ⟨v, n', ms, t, rfl⟩ := step_tr hs
    intro u
    by_cases e : u = v
    · subst e; rw [put_nodes_self]; exact done_tr ih t
    · rw [put_nodes_ne e]; exact ih u

theorem Path.run {P : Action → Prop} {s s' : Sys} (h : Path P mem Q s s') :
    ∃ as, run mem s as = some s' ∧
      (∀ pre a post s1, as = pre ++ a :: post → Raft.run mem s pre = some s1 → Within Q s1 a) := by
  induction h with
  | refl => exact ⟨[], rfl, fun pre a post s1 e => by cases pre <;> cases e⟩
  | tail _ w _ hs ih =>
    rename_i s1 s2 a _ _
    obtain ⟨as, h1, h2⟩ := ih
    refine ⟨as ++ [a], by rw [run_append, h1]; simp only [Option.bind_some, Raft.run, hs], ?_⟩
    intro pre b post s3 e hr
    rcases List.eq_nil_or_concat post with rfl | ⟨p, x, rfl⟩
    · rw [List.append_inj_left' e rfl |>.symm] at hr
      have := List.append_inj_right' e rfl
      cases this
      rw [h1] at hr; cases hr
      exact w
    · rw [List.concat_eq_append, ← List.cons_append, ← List.append_assoc] at e
      exact h2 pre b p s3 (List.append_inj_left' e rfl) hr

/-- Leaders of Q step down. -/
theorem settle : ∀ (L : List Nat) (s : Sys), (∀ q ∈ L, q ∈ mem ∧ q ∈ Q) →
    ∃ s', Path Any mem Q s s' ∧ (∀ u, PreVote.Same (s.nodes u) (s'.nodes u)) ∧ ∀ q ∈ L, (s'.nodes q).role ≠ .leader
  | [], s, _ => ⟨s, .refl s, fun _ => .refl _, by simp⟩
  | q :: L, s, h => by
    have hq := h q List.mem_cons_self
    obtain ⟨s1, p1, a1, a2⟩ : ∃ s1, Path Any mem Q s s1 ∧ (∀ u, PreVote.Same (s.nodes u) (s1.nodes u)) ∧
        (s1.nodes q).role ≠ .leader := by
      by_cases hr : (s.nodes q).role = .leader
      · have hc : ¬ ((s.nodes q).term < (s.nodes q).term ∨ (s.nodes q).mcTerm < 0) := by omega
        have hb : becomeFollower (s.nodes q) (s.nodes q).term 0 true = save { s.nodes q with role := .follower } := by
          unfold becomeFollower
          simp only [if_neg hc]
          rfl
        refine ⟨s.put mem q (save { s.nodes q with role := .follower }) [], .one (a := .stepDown q) hq.2 trivial ?_, fun u => ?_, ?_⟩
        · simp only [step]
          rw [if_pos ⟨hq.1, hr⟩, hb]
        · by_cases e : u = q
          · subst e; rw [put_nodes_self]
            exact ⟨rfl, rfl, rfl, rfl, rfl, fun _ => by simp [save]⟩
          · rw [put_nodes_ne e]; exact .refl _
        · rw [put_nodes_self]; simp [save]
      · exact ⟨s, .refl s, fun u => .refl _, hr⟩
    obtain ⟨s2, p2, b1, b2⟩ := settle L s1 fun x hx => h x (List.mem_cons_of_mem _ hx)
    refine ⟨s2, p1.trans p2, fun u => (a1 u).trans (b1 u), fun x hx => ?_⟩
    rcases List.mem_cons.1 hx with rfl | hx
    · exact (b1 x).role a2
    · exact b2 x hx

/-- A fresh candidate. -/
structure Fresh (s : Sys) (v : Nat) (n : Node) : Prop where
  node : s.nodes v = n
  role : n.role = .candidate
  yes : n.yes = [v]
  no : n.no = []
  peers : n.peers = []
  req : Msg.reqVote ⟨(v, n.inc), n.term, n.log.length, lastTerm n.log, n.mcTerm⟩ ∈ s.msgs

/-- The node after it has called an election. -/
def standing (v : Nat) (n : Node) : Node :=
  { n with role := .candidate, term := n.term + 1, vote := some (v, n.inc), yes := [v], no := [], peers := [] }

theorem stand {s : Sys} {v : Nat} (hv : v ∈ mem) (hvQ : v ∈ Q) (h2 : 2 ≤ mem.length) (hr : (s.nodes v).role ≠ .leader) :
    ∃ s' n, Path Any mem Q s s' ∧ Fresh s' v n ∧ n.term = (s.nodes v).term + 1 ∧ n.mcTerm = (s.nodes v).mcTerm ∧
      n.log = (s.nodes v).log ∧ ∀ u, u ≠ v → s'.nodes u = s.nodes u := by
  obtain ⟨s1, p1, a1, a2, a3⟩ : ∃ s1, Path Any mem Q s s1 ∧ (s1.nodes v).role = .follower ∧
      ((s1.nodes v).term = (s.nodes v).term ∧ (s1.nodes v).mcTerm = (s.nodes v).mcTerm ∧ (s1.nodes v).log = (s.nodes v).log) ∧
      ∀ u, u ≠ v → s1.nodes u = s.nodes u := by
    by_cases hc : (s.nodes v).role = .candidate
    · refine ⟨_, .one (a := .preVote v) hvQ trivial (by simp only [step]; rw [if_pos ⟨hv, hc⟩]), ?_, ?_, fun u hu => put_nodes_ne hu⟩
      · rw [put_nodes_self]
      · rw [put_nodes_self]; exact ⟨rfl, rfl, rfl⟩
    · refine ⟨s, .refl s, ?_, ⟨rfl, rfl, rfl⟩, fun _ _ => rfl⟩
      cases e : (s.nodes v).role <;> simp_all
  refine ⟨s1.put mem v (standing v (s1.nodes v))
    [.reqVote ⟨(v, (s1.nodes v).inc), (s1.nodes v).term + 1, (s1.nodes v).log.length, lastTerm (s1.nodes v).log, (s1.nodes v).mcTerm⟩],
    _, p1.trans (.one (a := .timeout v 0) hvQ trivial ?_), ⟨put_nodes_self, rfl, rfl, rfl, rfl, ?_⟩, ?_, a2.2.1, a2.2.2, fun u hu => ?_⟩
  · simp only [step]
    rw [if_pos ⟨hv, a1⟩]
    unfold beginElection
    rw [if_neg (by simpa using hv), if_neg (by omega)]
    simp only [a1, if_true]
    rfl
  · exact mem_put_msgs.2 (.inr (List.mem_singleton.2 rfl))
  · show (s1.nodes v).term + 1 = _
    rw [a2.1]
  · rw [put_nodes_ne hu, a3 u hu]

/-- One election after another. -/
theorem climb {v : Nat} (hv : v ∈ mem) (hvQ : v ∈ Q) (h2 : 2 ≤ mem.length) : ∀ (k : Nat) (s : Sys), (s.nodes v).role ≠ .leader →
    ∃ s' n, Path Any mem Q s s' ∧ Fresh s' v n ∧ n.term = (s.nodes v).term + k + 1 ∧ n.mcTerm = (s.nodes v).mcTerm ∧
      n.log = (s.nodes v).log ∧ ∀ u, u ≠ v → s'.nodes u = s.nodes u
  | 0, s, hr => stand hv hvQ h2 hr
  | k + 1, s, hr => by
    obtain ⟨s1, n1, p1, f1, a1, a2, a3, a4⟩ := climb hv hvQ h2 k s hr
    obtain ⟨s2, n2, p2, f2, b1, b2, b3, b4⟩ := stand (s := s1) hv hvQ h2 (by rw [f1.node, f1.role]; simp)
    rw [f1.node] at b1 b2 b3
    exact ⟨s2, n2, p1.trans p2, f2, by omega, b2.trans a2, b3.trans a3, fun u hu => (b4 u hu).trans (a4 u hu)⟩

theorem exists_largest (f : Nat → Nat) : ∀ Q : List Nat, Q ≠ [] → ∃ v ∈ Q, ∀ q ∈ Q, f q ≤ f v
  | [], h => absurd rfl h
  | [x], _ => ⟨x, List.mem_singleton.2 rfl, fun q hq => by rw [List.mem_singleton.1 hq]; exact Nat.le_refl _⟩
  | x :: y :: l, _ => by
    obtain ⟨v, hv, h⟩ := exists_largest f (y :: l) (by simp)
    rcases Nat.le_total (f v) (f x) with hx | hx
    · refine ⟨x, List.mem_cons_self, fun q hq => ?_⟩
      rcases List.mem_cons.1 hq with rfl | hq
      · exact Nat.le_refl _
      · exact Nat.le_trans (h q hq) hx
    · refine ⟨v, List.mem_cons_of_mem _ hv, fun q hq => ?_⟩
      rcases List.mem_cons.1 hq with rfl | hq
      · exact hx
      · exact h q hq

/-- The configuration version of `w` reaches `v` with a request for its vote. -/
theorem tell {s : Sys} {v w : Nat} {n : Node} (hv : v ∈ mem) (hvQ : v ∈ Q) (hwQ : w ∈ Q) (hne : w ≠ v) (hf : Fresh s w n)
    (hr : (s.nodes v).role ≠ .leader) (ht : (s.nodes v).term < n.term) :
    ∃ s', Path Any mem Q s s' ∧ (s'.nodes v).role ≠ .leader ∧ (s'.nodes v).term = n.term ∧
      (s'.nodes v).mcTerm = max (s.nodes v).mcTerm n.mcTerm ∧ (s'.nodes v).log = (s.nodes v).log ∧
      ∀ u, u ≠ v → s'.nodes u = s.nodes u := by
  have hd : ∀ (k : Node) (m : ReqVote), (decideVote k m).1.role = k.role ∧ (decideVote k m).1.term = k.term ∧
      (decideVote k m).1.mcTerm = k.mcTerm ∧ (decideVote k m).1.log = k.log := by
    intro k m
    unfold decideVote
    split <;> exact ⟨rfl, rfl, rfl, rfl⟩
  have hb : becomeFollower (s.nodes v) n.term n.mcTerm false =
      { s.nodes v with role := .follower, term := n.term, vote := none, mcTerm := max (s.nodes v).mcTerm n.mcTerm } := by
    unfold becomeFollower
    simp [ht]
  have hh : (handleRequestVote v (s.nodes v) ⟨(w, n.inc), n.term, n.log.length, lastTerm n.log, n.mcTerm⟩ false).1 =
      (decideVote { s.nodes v with role := .follower, term := n.term, vote := none, mcTerm := max (s.nodes v).mcTerm n.mcTerm }
        ⟨(w, n.inc), n.term, n.log.length, lastTerm n.log, n.mcTerm⟩).1 := by
    unfold handleRequestVote
    dsimp only
    rw [if_neg (show ¬ n.term < (s.nodes v).term by omega), if_neg (by simp [hr]), if_pos ht, hb]
  have p := Path.deliver (mem := mem) (Q := Q) (s := s) (v := v) (noop := 0) hf.req hv hvQ hwQ
    (by show decide (w ≠ v) = true; simpa using hne) rfl
  refine ⟨_, p.mono (fun _ _ => trivial), ?_⟩
  dsimp only
  rw [put_nodes_self, hh]
  have d := hd { s.nodes v with role := .follower, term := n.term, vote := none, mcTerm := max (s.nodes v).mcTerm n.mcTerm }
    ⟨(w, n.inc), n.term, n.log.length, lastTerm n.log, n.mcTerm⟩
  exact ⟨by rw [d.1]; simp, by rw [d.2.1], by rw [d.2.2.1], by rw [d.2.2.2], fun u hu => put_nodes_ne hu⟩

/-- A cluster of one. -/
theorem alone {s : Sys} {v : Nat} (hm : mem = [v]) (hvQ : v ∈ Q) (hf : (s.nodes v).role ≠ .leader)
    (hmc : (s.nodes v).mcTerm ≤ (s.nodes v).term) (noop : Nat) (cmds : List Nat) :
    ∃ s', Path Any mem Q s s' ∧ (s'.nodes v).role = .leader ∧
      (s'.nodes v).log = (s.nodes v).log ++ (noop :: cmds).map (fun c => ⟨(s'.nodes v).term, c⟩) ∧
      (s'.nodes v).log.length ≤ (s'.nodes v).applied := by
  subst hm
  have hv : v ∈ [v] := List.mem_singleton.2 rfl
  obtain ⟨s1, p1, a1, a2⟩ : ∃ s1, Path Any [v] Q s s1 ∧ (s1.nodes v).role = .follower ∧
      ((s1.nodes v).term = (s.nodes v).term ∧ (s1.nodes v).mcTerm = (s.nodes v).mcTerm ∧ (s1.nodes v).log = (s.nodes v).log) := by
    by_cases hc : (s.nodes v).role = .candidate
    · refine ⟨_, .one (a := .preVote v) hvQ trivial (by simp only [step]; rw [if_pos ⟨hv, hc⟩]), ?_, ?_⟩
      · rw [put_nodes_self]
      · rw [put_nodes_self]; exact ⟨rfl, rfl, rfl⟩
    · refine ⟨s, .refl s, ?_, ⟨rfl, rfl, rfl⟩⟩
      cases e : (s.nodes v).role <;> simp_all
  obtain ⟨n1, hn1, c1, c2, c3⟩ : ∃ n1, becomeLeader [v] noop (s1.nodes v) = some n1 ∧ n1.role = .leader ∧
      n1.log = (s1.nodes v).log ++ [⟨n1.term, noop⟩] ∧ n1.log.length ≤ n1.applied := by
    unfold becomeLeader
    rw [if_neg (by rw [a1]; simp), if_neg (by omega), if_neg (by simp)]
    generalize (if (s1.nodes v).mcTerm = (s1.nodes v).term then (s1.nodes v).term + 1 else (s1.nodes v).term) = t
    dsimp only
    rw [if_pos (by rfl)]
    refine ⟨_, rfl, ?_⟩
    unfold commitWhatWeCan
    split
    · exact ⟨rfl, rfl, Nat.le_refl _⟩
    · rename_i h
      exact ⟨rfl, rfl, Nat.not_lt.1 h⟩
  have p2 : Path Any [v] Q s1 (s1.put [v] v n1 []) := by
    refine .one (a := .timeout v noop) hvQ trivial ?_
    simp only [step]
    rw [if_pos ⟨hv, a1⟩]
    unfold beginElection
    rw [if_neg (by simp), if_pos (by rfl), hn1]
    rfl
  have p3 : Path Any [v] Q (s1.put [v] v n1 []) ((s1.put [v] v n1 []).put [v] v (replicateBatch [v] n1 cmds) []) := by
    refine .one (a := .client v cmds) hvQ trivial ?_
    simp only [step]
    rw [if_pos ⟨hv, by rw [put_nodes_self]; exact c1⟩, put_nodes_self]
  refine ⟨_, (p1.trans p2).trans p3, ?_⟩
  rw [put_nodes_self, ← a2.2.2]
  unfold replicateBatch commitWhatWeCan
  rw [if_pos (by rfl)]
  split
  · refine ⟨c1, ?_, Nat.le_refl _⟩
    show n1.log ++ _ = _
    rw [c2, List.append_assoc]; rfl
  · rename_i h
    refine ⟨c1, ?_, Nat.not_lt.1 h⟩
    show n1.log ++ _ = _
    rw [c2, List.append_assoc]; rfl

theorem free_progress {s : Sys} (hi : Inv0 s) (hd : ∀ u, Done (s.nodes u)) (hQ : PreVote.Majority mem Q) (cmds : List Nat) :
    ∃ v ∈ Q, CanCommit mem Q s v cmds := by
  have hne : Q ≠ [] := by intro h; have := hQ.2.2; rw [h] at this; simp at this
  obtain ⟨v, hvQ, hnew⟩ := PreVote.exists_newest (fun q => (s.nodes q).log) Q hne
  obtain ⟨w, hwQ, hmax⟩ := exists_largest (fun q => (s.nodes q).mcTerm) Q hne
  obtain ⟨x, hxQ, htop⟩ := exists_largest (fun q => (s.nodes q).term) Q hne
  have hvm := hQ.2.1 hvQ
  refine ⟨v, hvQ, ?_⟩
  obtain ⟨s1, p1, a1, a2⟩ := settle (mem := mem) (Q := Q) Q s fun q hq => ⟨hQ.2.1 hq, hq⟩
  suffices h : ∃ s', Path Any mem Q s1 s' ∧ (s'.nodes v).role = .leader ∧
      (s'.nodes v).log = (s.nodes v).log ++ (0 :: cmds).map (fun c => ⟨(s'.nodes v).term, c⟩) ∧
      (s'.nodes v).log.length ≤ (s'.nodes v).applied by
    obtain ⟨s', p, r1, r2, r3⟩ := h
    obtain ⟨as', h1, h2⟩ := (p1.trans p).run
    exact ⟨as', s', h1, h2, r1, 0, r2, r3⟩
  have hi1 := p1.inv0 hi
  have hd1 := p1.done hd
  by_cases h2 : 2 ≤ mem.length
  · -- `v` learns the newest configuration
    obtain ⟨s2, p2, b1, b2, b3, b4⟩ : ∃ s2, Path Any mem Q s1 s2 ∧ (∀ q ∈ Q, (s2.nodes q).role ≠ .leader) ∧
        (∀ q ∈ Q, (s2.nodes q).mcTerm ≤ (s2.nodes v).mcTerm) ∧ (∀ q ∈ Q, (s2.nodes q).log = (s.nodes q).log) ∧
        ∃ B, ∀ q ∈ Q, (s2.nodes q).term ≤ B := by
      by_cases hvw : w = v
      · subst hvw
        refine ⟨s1, .refl _, a2, fun q hq => ?_, fun q _ => (a1 q).log, (s.nodes x).term, fun q hq => ?_⟩
        · rw [(a1 q).mc, (a1 w).mc]; exact hmax q hq
        · rw [(a1 q).term]; exact htop q hq
      · obtain ⟨s2, n2, p2, f2, c1, c2, c3, c4⟩ := climb (hQ.2.1 hwQ) hwQ h2 (s.nodes x).term s1 (a2 w hwQ)
        have hv2 : s2.nodes v = s1.nodes v := c4 v fun e => hvw e.symm
        obtain ⟨s3, p3, d1, d2, d3, d4, d5⟩ := tell (mem := mem) hvm hvQ hwQ hvw f2 (by rw [hv2]; exact a2 v hvQ)
          (by rw [hv2, (a1 v).term]; have := htop v hvQ; omega)
        have hw3 : s3.nodes w = n2 := by rw [d5 w hvw, f2.node]
        have hq3 : ∀ q, q ≠ v → q ≠ w → s3.nodes q = s1.nodes q := fun q e1 e2 => by rw [d5 q e1, c4 q e2]
        have hmv := hmax v hvQ
        have hvmc : (s3.nodes v).mcTerm = (s.nodes w).mcTerm := by
          rw [d3, hv2, c2, (a1 v).mc, (a1 w).mc]
          omega
        refine ⟨s3, p2.trans p3, fun q hq => ?_, fun q hq => ?_, fun q hq => ?_, n2.term, fun q hq => ?_⟩
        · by_cases e1 : q = v
          · rw [e1]; exact d1
          · by_cases e2 : q = w
            · rw [e2, hw3, f2.role]; simp
            · rw [hq3 q e1 e2]; exact a2 q hq
        · rw [hvmc]
          by_cases e1 : q = v
          · rw [e1, hvmc]; exact Nat.le_refl _
          · by_cases e2 : q = w
            · rw [e2, hw3, c2, (a1 w).mc]; exact Nat.le_refl _
            · rw [hq3 q e1 e2, (a1 q).mc]; exact hmax q hq
        · by_cases e1 : q = v
          · rw [e1, d4, hv2, (a1 v).log]
          · by_cases e2 : q = w
            · rw [e2, hw3, c3, (a1 w).log]
            · rw [hq3 q e1 e2, (a1 q).log]
        · by_cases e1 : q = v
          · rw [e1, d2]; exact Nat.le_refl _
          · by_cases e2 : q = w
            · rw [e2, hw3]; exact Nat.le_refl _
            · rw [hq3 q e1 e2, (a1 q).term]
              have := htop q hq
              omega
    obtain ⟨B, b4⟩ := b4
    have hi2 := p2.inv0 hi1
    obtain ⟨s3, n3, p3, f3, c1, c2, c3, c4⟩ := climb hvm hvQ h2 B s2 (b1 v hvQ)
    have hd3 := p3.done (p2.done hd1) v
    rw [f3.node] at hd3
    obtain ⟨D, d1, d2, d3⟩ := PreVote.pick hQ hvQ
    obtain ⟨s4, p4, r1, r2, r3, r4⟩ := candidate_commits (mem := mem) (Q := Q) n3 f3.node hvm hvQ f3.role f3.yes f3.no f3.peers
      (by have : (s2.nodes v).mcTerm ≤ (s2.nodes v).term := (hi2.node v).le
          omega) hd3.1 f3.req D d1 d2
      (fun q hq => by
        obtain ⟨_, hq, hqv⟩ := d2 q hq
        rw [c4 q hqv]
        refine ⟨?_, b1 q hq, ?_, ?_⟩
        · have := b4 q hq
          omega
        · rw [c2]; exact b2 q hq
        · rw [c3, b3 v hvQ, b3 q hq]; exact hnew q hq) d3 h2 0 cmds
    refine ⟨s4, (p2.trans p3).trans (p4.mono fun _ _ => trivial), r1, ?_, r4⟩
    rw [r3, r2, c3, b3 v hvQ]
  · have hm : mem = [v] := by
      match mem, hvm, h2 with
      | [x], h, _ => rw [List.mem_singleton.1 h]
      | x :: y :: l, _, h => simp at h
    obtain ⟨s', p, r1, r2, r3⟩ := alone hm hvQ (a2 v hvQ) (hi1.node v).le 0 cmds (Q := Q)
    exact ⟨s', p, r1, by rw [r2, (a1 v).log], r3⟩

end

end Verif.Raft

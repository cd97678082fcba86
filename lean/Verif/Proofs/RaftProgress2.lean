import Verif.Proofs.RaftProgress
import Verif.Proofs.RaftCommit
/- The leader of the schedule commits (C126). -/
namespace Verif.Raft

theorem commit_log (n : Node) : (commitWhatWeCan n).log = n.log := by unfold commitWhatWeCan; split <;> rfl

theorem bf_facts (n : Node) (t mc : Nat) (sv : Bool) : (becomeFollower n t mc sv).log = n.log ∧
    (becomeFollower n t mc sv).inc = n.inc ∧ (n.term < t → (becomeFollower n t mc sv).term = t) := by
  unfold becomeFollower
  by_cases h : n.term < t ∨ n.mcTerm < mc
  · simp only [if_pos h]
    cases sv <;> exact ⟨rfl, rfl, fun _ => rfl⟩
  · simp only [if_neg h]
    cases sv <;> exact ⟨rfl, rfl, fun h2 => absurd (.inl h2) h⟩

theorem follow_facts (n : Node) (m : AE) : (follow n m).log = n.log ∧ (follow n m).inc = n.inc ∧
    (n.term ≤ m.term → (follow n m).term = m.term) := by
  unfold follow
  generalize hn : (if n.mcTerm < m.mcTerm then save { n with mcTerm := m.mcTerm } else n) = n1
  have e : n1.log = n.log ∧ n1.inc = n.inc ∧ n1.term = n.term := by
    rw [← hn]; split <;> exact ⟨rfl, rfl, rfl⟩
  dsimp only
  have b := bf_facts n1 m.term m.mcTerm true
  split
  · rename_i h
    exact ⟨by rw [b.1, e.1], by rw [b.2.1, e.2.1], fun _ => b.2.2 h⟩
  · exact ⟨e.1, e.2.1, fun _ => by show n1.term = m.term; omega⟩

theorem follow_log (n : Node) (m : AE) : (follow n m).log = n.log := (follow_facts n m).1

theorem follow_inc (n : Node) (m : AE) : (follow n m).inc = n.inc := (follow_facts n m).2.1

theorem follow_term {n : Node} {m : AE} (h : n.term ≤ m.term) : (follow n m).term = m.term := (follow_facts n m).2.2 h

/-- The whole log is accepted, and acknowledged. -/
theorem ae_whole (q : Nat) (n : Node) (m : AE) (hp : m.prev = 0) (he : m.entries ≠ [])
    (hl : m.terms.length = m.entries.length) (h1 : 1 ≤ m.term) (ht : n.term ≤ m.term) :
    ∃ a, (handleAppendEntries q n m).2 = some a ∧ a.src = (q, n.inc) ∧ a.leader = m.src ∧ a.term = m.term ∧
      a.rejected = false ∧ m.entries.length ≤ a.lastIdx := by
  have hle := commonPrefix_le_right m.terms (terms n.log)
  have hll : (terms n.log).length = n.log.length := List.length_map _
  rw [hll] at hle
  unfold handleAppendEntries
  rw [if_neg (show ¬ m.term < 1 by omega)]
  dsimp only
  rw [if_neg (show ¬ m.term < n.term by omega)]
  generalize hn : ({ n with commit := max n.commit (min m.commit (commonPrefix m.terms (terms n.log))) } : Node) = n1
  have e1 : n1.log = n.log := by rw [← hn]
  have e2 : n1.inc = n.inc := by rw [← hn]
  have e3 : n1.term ≤ m.term := by rw [← hn]; exact ht
  have mis : logsAreMismatched (follow n1 m).log m = false := by
    unfold logsAreMismatched
    rw [if_neg he, if_pos hp]
  by_cases hc : commonPrefix m.terms (terms n.log) = m.terms.length
  · rw [if_pos hc]
    refine ⟨_, rfl, ?_, rfl, follow_term e3, rfl, ?_⟩
    · show (q, (follow n1 m).inc) = _; rw [follow_inc, e2]
    · show _ ≤ (follow n1 m).log.length
      rw [follow_log, e1]; omega
  · rw [if_neg hc, mis, if_neg (by simp), if_neg he, hp, if_neg (by simp)]
    rcases hu : updateLog (follow n1 m).log m ((terms n.log).isPrefixOf m.terms) (commonPrefix m.terms (terms n.log)) with _ | log
    · refine ⟨_, rfl, ?_, rfl, follow_term e3, rfl, ?_⟩
      · show (q, (follow n1 m).inc) = _; rw [follow_inc, e2]
      · show _ ≤ (follow n1 m).log.length
        rw [follow_log, e1] at hu ⊢
        unfold updateLog at hu
        rw [hp] at hu
        split at hu
        · rw [if_neg (by omega)] at hu
          split at hu <;> cases hu
        · split at hu
          · omega
          · cases hu
    · refine ⟨_, rfl, ?_, rfl, follow_term e3, rfl, ?_⟩
      · show (q, (follow n1 m).inc) = _; rw [follow_inc, e2]
      · show _ ≤ log.length
        rw [follow_log, e1] at hu
        unfold updateLog at hu
        rw [hp] at hu
        split at hu
        · rw [if_neg (by omega)] at hu
          split at hu
          · cases hu; omega
          · cases hu
            rw [List.length_append, List.length_drop]; omega
        · split at hu
          · cases hu
          · cases hu
            rw [List.length_append, List.length_drop, List.length_take]; omega

/-- One acknowledgement is counted; fewer than a quorum so far. -/
theorem advance_none {mem : List Nat} {n : Node} (h : n.peers.length + 1 < quorum mem false) :
    leaderAdvanceCommitIndex mem n false = n := by
  unfold leaderAdvanceCommitIndex
  have hl : (sortDesc (matchIndexes mem n)).length ≤ n.peers.length + 1 := by
    rw [(sortDesc_perm _).length_eq]
    unfold matchIndexes
    rw [List.length_cons, List.length_map]
    exact Nat.succ_le_succ (List.length_filter_le _ _)
  rw [List.getElem?_eq_none (by omega)]

/-- The last one brings the commit index to the end of the log. -/
theorem advance_all {mem : List Nat} {n : Node} (h : n.peers.length + 1 = quorum mem false)
    (hmem : ∀ x ∈ n.peers, x.1.1 ∈ mem) (hge : ∀ x ∈ n.peers, n.log.length ≤ x.2) (h1 : 1 ≤ n.log.length)
    (ht : termAt n.log n.log.length = n.term) (hac : n.commit ≤ n.applied) :
    ∃ n', leaderAdvanceCommitIndex mem n false = n' ∧ n'.log = n.log ∧ n'.role = n.role ∧ n'.term = n.term ∧
      n.log.length ≤ n'.applied := by
  have hf : (n.peers.filter fun x => x.1.1 ∈ mem) = n.peers := List.filter_eq_self.2 fun x hx => by simpa using hmem x hx
  have hl : (sortDesc (matchIndexes mem n)).length = n.peers.length + 1 := by
    rw [(sortDesc_perm _).length_eq]
    unfold matchIndexes
    rw [hf, List.length_cons, List.length_map]
  have hk : quorum mem false - 1 < (sortDesc (matchIndexes mem n)).length := by omega
  have hi := List.getElem?_eq_getElem hk
  generalize (sortDesc (matchIndexes mem n))[quorum mem false - 1] = i at hi
  have hmi : i ∈ matchIndexes mem n := (sortDesc_perm _).subset (List.mem_of_getElem? hi)
  have hc := sortDesc_count hi
  have hlen : (matchIndexes mem n).length = quorum mem false := by
    rw [← (sortDesc_perm _).length_eq, hl, h]
  have hall : ∀ x ∈ matchIndexes mem n, i ≤ x := by
    have := List.countP_le_length (p := fun x => decide (i ≤ x)) (l := matchIndexes mem n)
    have e : (matchIndexes mem n).countP (fun x => decide (i ≤ x)) = (matchIndexes mem n).length := by omega
    intro x hx
    simpa using List.countP_eq_length.1 e x hx
  have hile : i ≤ n.log.length := hall _ List.mem_cons_self
  have hige : n.log.length ≤ i := by
    rcases List.mem_cons.1 hmi with e | e
    · omega
    · rw [hf] at e
      obtain ⟨x, hx, rfl⟩ := List.mem_map.1 e
      exact hge x hx
  have hie : i = n.log.length := by omega
  refine ⟨_, rfl, ?_⟩
  unfold leaderAdvanceCommitIndex
  rw [hi]
  dsimp only
  by_cases hle : i ≤ n.commit
  · rw [if_pos (.inr (.inl hle))]
    exact ⟨rfl, rfl, rfl, by omega⟩
  · rw [if_neg (by rintro (h | h | h | h) <;> first | omega | exact h (by rw [hie]; exact ht))]
    unfold commitWhatWeCan
    split
    · exact ⟨rfl, rfl, rfl, hige⟩
    · rename_i h
      exact ⟨rfl, rfl, rfl, Nat.le_trans hige (Nat.not_lt.1 h)⟩

section
variable {mem Q : List Nat}

theorem matchOf_none {peers : List (PeerID × Nat)} {p : PeerID} (h : ∀ x ∈ peers, x.1.1 ≠ p.1) : matchOf peers p = 0 := by
  unfold matchOf
  rw [List.find?_eq_none.2 (fun x hx => by simpa using fun e => h x hx (by rw [e]))]
  rfl

theorem setMatch_new {peers : List (PeerID × Nat)} {p : PeerID} (i : Nat) (h : ∀ x ∈ peers, x.1.1 ≠ p.1) :
    setMatch peers p i = peers ++ [(p, i)] := by
  unfold setMatch
  rw [List.filter_eq_self.2 fun x hx => by simpa using fun e => h x hx (by rw [e])]

/-- The whole log goes to `q`, and the acknowledgement back. -/
theorem ack_round {s : Sys} {v q : Nat} (n : Node) (hn : s.nodes v = n) (hv : v ∈ mem) (hvQ : v ∈ Q) (hq : q ∈ mem)
    (hqQ : q ∈ Q) (hne : q ≠ v) (hrole : n.role = .leader) (h1 : 1 ≤ n.log.length) (ht1 : 1 ≤ n.term)
    (hae : ∃ c mc, Msg.ae ⟨(v, n.inc), n.term, 0, termAt n.log 0, n.log, terms n.log, c, mc⟩ ∈ s.msgs)
    (ht : (s.nodes q).term ≤ n.term) (hps : ∀ x ∈ n.peers, x.1.1 ≠ q) :
    ∃ s' p i, Path Plain mem Q s s' ∧ p.1 = q ∧ n.log.length ≤ i ∧
      s'.nodes v = leaderAdvanceCommitIndex mem { n with peers := n.peers ++ [(p, i)] } false ∧
      (∀ u, u ≠ v → u ≠ q → s'.nodes u = s.nodes u) ∧ s.msgs ⊆ s'.msgs := by
  obtain ⟨c, mc, hae⟩ := hae
  have hne0 : n.log ≠ [] := by intro h; rw [h] at h1; simp at h1
  obtain ⟨a, ha, a1, a2, a3, a4, a5⟩ := ae_whole q (s.nodes q)
    ⟨(v, n.inc), n.term, 0, termAt n.log 0, n.log, terms n.log, c, mc⟩ rfl hne0 (List.length_map _) ht1 ht
  have p1 := Path.deliver (mem := mem) (Q := Q) (s := s) (v := q) (noop := 0) hae hq hqQ hvQ
    (by show decide (v ≠ q) = true; simpa using fun e => hne e.symm) rfl
  rw [ha] at p1
  generalize hs1 : s.put mem q _ _ = s1 at p1
  have hv1 : s1.nodes v = n := by rw [← hs1, put_nodes_ne (fun e => hne e.symm), hn]
  have hm1 : Msg.ack a ∈ s1.msgs := by rw [← hs1]; exact mem_put_msgs.2 (.inr (by simp))
  have hh : handleAck mem v n a false false =
      leaderAdvanceCommitIndex mem { n with peers := n.peers ++ [(a.src, a.lastIdx)] } false := by
    unfold handleAck
    dsimp only at a2 a3 a5
    have hps' : ∀ x ∈ n.peers, x.1.1 ≠ a.src.1 := by rw [a1]; exact hps
    rw [if_neg (by omega), if_neg (by omega), if_neg (by simp [hrole]), if_neg (by simp [a2])]
    dsimp only
    rw [if_neg (by simp [a4]), matchOf_none hps', if_pos (by omega), setMatch_new _ hps']
  have p2 := Path.deliver (mem := mem) (Q := Q) (s := s1) (v := v) (noop := 0) hm1 hv hvQ
    (by show a.src.1 ∈ Q; rw [a1]; exact hqQ) (by show decide (a.leader.1 = v) = true; rw [a2]; simp)
    (r := (handleAck mem v n a false false, [])) (by rw [hv1]; rfl)
  refine ⟨_, a.src, a.lastIdx, p1.trans p2, by rw [a1], a5, ?_, fun u h1 h2 => ?_, fun x hx => ?_⟩
  · rw [put_nodes_self]; exact hh
  · rw [put_nodes_ne h1, ← hs1, put_nodes_ne h2]
  · exact mem_put_msgs.2 (.inl (by rw [← hs1]; exact mem_put_msgs.2 (.inl hx)))

/-- All acknowledgements. -/
theorem acks (n : Node) (v c mc : Nat) (hv : v ∈ mem) (hvQ : v ∈ Q) (hrole : n.role = .leader) (h1 : 1 ≤ n.log.length)
    (ht1 : 1 ≤ n.term) (hlt : termAt n.log n.log.length = n.term) (hac : n.commit ≤ n.applied) :
    ∀ (D : List Nat) (s : Sys) (ps : List (PeerID × Nat)), D ≠ [] → D.Nodup →
      (∀ q ∈ D, q ∈ mem ∧ q ∈ Q ∧ q ≠ v ∧ (∀ x ∈ ps, x.1.1 ≠ q) ∧ (s.nodes q).term ≤ n.term) →
      s.nodes v = { n with peers := ps } →
      (∀ x ∈ ps, x.1.1 ∈ mem ∧ n.log.length ≤ x.2) →
      Msg.ae ⟨(v, n.inc), n.term, 0, termAt n.log 0, n.log, terms n.log, c, mc⟩ ∈ s.msgs →
      ps.length + D.length + 1 = quorum mem false →
      ∃ s', Path Plain mem Q s s' ∧ (s'.nodes v).role = .leader ∧ (s'.nodes v).term = n.term ∧
        (s'.nodes v).log = n.log ∧ n.log.length ≤ (s'.nodes v).applied
  | [], _, _, h, _, _, _, _, _, _ => absurd rfl h
  | q :: D, s, ps, _, hnd, hD, hn, hps, hae, hlen => by
    have hq := hD q List.mem_cons_self
    rw [List.length_cons] at hlen
    rw [List.nodup_cons] at hnd
    obtain ⟨s1, p, i, p1, b1, b2, b3, b4, b5⟩ := ack_round (mem := mem) (Q := Q) { n with peers := ps } hn hv hvQ hq.1 hq.2.1
      hq.2.2.1 hrole h1 ht1 ⟨c, mc, hae⟩ hq.2.2.2.2 hq.2.2.2.1
    have hps' : ∀ x ∈ ps ++ [(p, i)], x.1.1 ∈ mem ∧ n.log.length ≤ x.2 := by
      intro x hx
      rcases List.mem_append.1 hx with h | h
      · exact hps x h
      · rw [List.mem_singleton.1 h]; exact ⟨b1 ▸ hq.1, b2⟩
    by_cases hd : D = []
    · subst hd
      obtain ⟨n', e, c1, c2, c3, c4⟩ := advance_all (mem := mem) (n := { n with peers := ps ++ [(p, i)] })
        (by rw [List.length_append, List.length_singleton]; simp at hlen; omega) (fun x hx => (hps' x hx).1)
        (fun x hx => (hps' x hx).2) h1 hlt hac
      dsimp only at b3
      refine ⟨s1, p1, ?_, ?_, ?_, ?_⟩ <;> rw [b3, e]
      · rw [c2]; exact hrole
      · exact c3
      · exact c1
      · exact c4
    · have hdl : 0 < D.length := List.length_pos_of_ne_nil hd
      rw [advance_none (by show (ps ++ [(p, i)]).length + 1 < _; rw [List.length_append, List.length_singleton]; omega)] at b3
      obtain ⟨s2, p2, r⟩ := acks n v c mc hv hvQ hrole h1 ht1 hlt hac D s1 (ps ++ [(p, i)]) hd hnd.2
        (fun x hx => by
          have h := hD x (List.mem_cons_of_mem _ hx)
          have hxq : x ≠ q := fun e => hnd.1 (e ▸ hx)
          refine ⟨h.1, h.2.1, h.2.2.1, fun y hy => ?_, ?_⟩
          · rcases List.mem_append.1 hy with hy | hy
            · exact h.2.2.2.1 y hy
            · rw [List.mem_singleton.1 hy]
              show p.1 ≠ x
              rw [b1]; exact fun e => hxq e.symm
          · rw [b4 x h.2.2.1 hxq]; exact h.2.2.2.2)
        b3 hps' (b5 hae) (by rw [List.length_append, List.length_singleton]; omega)
      exact ⟨s2, p1.trans p2, r⟩

theorem termAt_last (l : List Entry) (e : Entry) : termAt (l ++ [e]) (l ++ [e]).length = e.term := by
  unfold termAt terms
  simp

/-- A new leader appends the commands and commits them. -/
theorem commits {s : Sys} {v : Nat} (n : Node) (hn : s.nodes v = n) (hv : v ∈ mem) (hvQ : v ∈ Q) (hrole : n.role = .leader)
    (ht1 : 1 ≤ n.term) (hac : n.commit ≤ n.applied) (hp : n.peers = []) (h2 : 2 ≤ mem.length) (D : List Nat)
    (hnd : D.Nodup) (hD : ∀ q ∈ D, q ∈ mem ∧ q ∈ Q ∧ q ≠ v) (hT : ∀ q ∈ D, (s.nodes q).term ≤ n.term)
    (hlen : D.length + 1 = quorum mem false) (cmds : List Nat)
    (hlast : ∃ l e, n.log = l ++ [e] ∧ e.term = n.term) :
    ∃ s', Path Plain mem Q s s' ∧ (s'.nodes v).role = .leader ∧ (s'.nodes v).term = n.term ∧
      (s'.nodes v).log = n.log ++ cmds.map (fun c => ⟨n.term, c⟩) ∧
      (s'.nodes v).log.length ≤ (s'.nodes v).applied := by
  have hq2 : 2 ≤ quorum mem false := by show 2 ≤ mem.length / 2 + 1; omega
  have hd : D ≠ [] := by intro h; subst h; simp at hlen; omega
  generalize hL : n.log ++ cmds.map (fun c => (⟨n.term, c⟩ : Entry)) = L
  have hrb : replicateBatch mem n cmds = { n with log := L } := by
    unfold replicateBatch
    dsimp only
    rw [if_neg (show ¬ mem.length = 1 by omega), hL]
  have p1 : Path Plain mem Q s (s.put mem v { n with log := L } []) := by
    refine .one (a := .client v cmds) hvQ trivial ?_
    simp only [step]
    rw [if_pos ⟨hv, by rw [hn]; exact hrole⟩, hn, hrb]
  generalize hs1 : s.put mem v { n with log := L } [] = s1 at p1
  have hv1 : s1.nodes v = { n with log := L } := by rw [← hs1, put_nodes_self]
  have hLl : ∃ l e, L = l ++ [e] ∧ e.term = n.term := by
    rcases List.eq_nil_or_concat cmds with rfl | ⟨cs, c, rfl⟩
    · obtain ⟨l, e, h, h'⟩ := hlast
      exact ⟨l, e, by rw [← hL, h]; simp, h'⟩
    · exact ⟨n.log ++ cs.map (fun c => ⟨n.term, c⟩), ⟨n.term, c⟩, by rw [← hL]; simp, rfl⟩
  have hpos : 1 ≤ L.length := by
    obtain ⟨l, e, h, _⟩ := hLl
    rw [h, List.length_append, List.length_singleton]; omega
  have p2 : Path Plain mem Q s1 (s1.put mem v (s1.nodes v) [.ae (mkAE v (s1.nodes v) 1 L.length)]) := by
    refine .one (a := .send v 1 L.length) hvQ trivial ?_
    simp only [step]
    rw [if_pos ⟨hv, by rw [hv1]; exact hrole, .inr ⟨Nat.le_refl _, by rw [hv1]; show 1 - 1 + _ ≤ L.length; omega⟩⟩]
  generalize hs2 : s1.put mem v (s1.nodes v) [.ae (mkAE v (s1.nodes v) 1 L.length)] = s2 at p2
  have hv2 : s2.nodes v = { n with log := L, peers := [] } := by rw [← hs2, put_nodes_self, hv1, ← hp]
  have hmk : mkAE v (s1.nodes v) 1 L.length = ⟨(v, n.inc), n.term, 0, termAt L 0, L, terms L, n.commit, n.mcTerm⟩ := by
    rw [hv1]
    unfold mkAE
    simp
  have hm2 : Msg.ae ⟨(v, n.inc), n.term, 0, termAt L 0, L, terms L, n.commit, n.mcTerm⟩ ∈ s2.msgs := by
    rw [← hs2, ← hmk]; exact mem_put_msgs.2 (.inr (List.mem_singleton.2 rfl))
  obtain ⟨s3, p3, r1, r2, r3, r4⟩ := acks (mem := mem) (Q := Q) { n with log := L } v n.commit n.mcTerm hv hvQ hrole hpos ht1
    (by obtain ⟨l, e, h, h'⟩ := hLl; show termAt L L.length = n.term; rw [h, termAt_last, h']) hac D s2 [] hd hnd
    (fun q hq => ⟨(hD q hq).1, (hD q hq).2.1, (hD q hq).2.2, by simp, by
      rw [← hs2, put_nodes_ne (hD q hq).2.2, ← hs1, put_nodes_ne (hD q hq).2.2]; exact hT q hq⟩)
    hv2 (by simp) hm2 (by simp; omega)
  exact ⟨s3, (p1.trans p2).trans p3, r1, r2, r3, by rw [r3]; exact r4⟩

/-- From a candidacy to a committed batch. -/
theorem candidate_commits {s : Sys} {v : Nat} (n : Node) (hn : s.nodes v = n) (hv : v ∈ mem) (hvQ : v ∈ Q)
    (hc : n.role = .candidate) (hyes : n.yes = [v]) (hno : n.no = []) (hp : n.peers = []) (hmc : n.mcTerm < n.term)
    (hac : n.commit ≤ n.applied)
    (hr : Msg.reqVote ⟨(v, n.inc), n.term, n.log.length, lastTerm n.log, n.mcTerm⟩ ∈ s.msgs)
    (D : List Nat) (hnd : D.Nodup) (hD : ∀ q ∈ D, q ∈ mem ∧ q ∈ Q ∧ q ≠ v) (hV : ∀ q ∈ D, Voter n (s.nodes q))
    (hlen : D.length + 1 = quorum mem false) (h2 : 2 ≤ mem.length) (noop : Nat) (cmds : List Nat) :
    ∃ s', Path Plain mem Q s s' ∧ (s'.nodes v).role = .leader ∧ (s'.nodes v).term = n.term ∧
      (s'.nodes v).log = n.log ++ (noop :: cmds).map (fun c => ⟨n.term, c⟩) ∧
      (s'.nodes v).log.length ≤ (s'.nodes v).applied := by
  obtain ⟨s1, n1, p1, e, h1, h2', h3, h4, h5, h6, h7, h8⟩ := wins n hn hv hvQ hc hyes hno hmc hr D hnd hD hV hlen h2 noop
  obtain ⟨s2, p2, r1, r2, r3, r4⟩ := commits n1 e hv hvQ h1 (by omega) (by rw [h6, h7]; exact hac) (by rw [h5]; exact hp) h2
    D hnd hD (fun q hq => by rw [h2']; exact h8 q hq) hlen cmds ⟨n.log, ⟨n.term, noop⟩, h4, h2'.symm⟩
  refine ⟨s2, p1.trans p2, r1, by rw [r2, h2'], ?_, r4⟩
  rw [r3, h4, h2', List.append_assoc]
  rfl

end

/-! Whatever is committed at a node is applied when its event ends. -/

def Done (n : Node) : Prop := n.commit ≤ n.applied ∧ n.saved.commit ≤ n.saved.applied

theorem done_save {n : Node} (h : n.commit ≤ n.applied) : Done (save n) := ⟨h, h⟩

theorem done_commit {n : Node}
    (h : n.saved.commit ≤ n.saved.applied ∨ (n.saved.commit ≤ n.commit ∧ n.saved.applied = n.applied)) :
    Done (commitWhatWeCan n) := by
  unfold commitWhatWeCan
  split
  · exact done_save (n := { n with applied := n.commit }) (Nat.le_refl _)
  · rename_i h1
    have h1 := Nat.not_lt.1 h1
    rcases h with h | ⟨h, h2⟩
    · exact ⟨h1, h⟩
    · exact ⟨h1, by rw [h2]; exact Nat.le_trans h h1⟩

theorem done_follower {n : Node} (h : Done n) (t mc : Nat) (sv : Bool) : Done (becomeFollower n t mc sv) := by
  unfold becomeFollower
  by_cases hc : n.term < t ∨ n.mcTerm < mc
  · simp only [if_pos hc]
    cases sv
    · exact h
    · exact done_save h.1
  · simp only [if_neg hc]
    cases sv
    · exact h
    · exact done_save h.1

theorem follow_commit (n : Node) (m : AE) : (follow n m).commit = n.commit ∧ (follow n m).applied = n.applied ∧
    ((follow n m).saved.commit = n.saved.commit ∧ (follow n m).saved.applied = n.saved.applied ∨
      (follow n m).saved.commit = n.commit ∧ (follow n m).saved.applied = n.applied) := by
  have bf : ∀ k : Node, (becomeFollower k m.term m.mcTerm true).commit = k.commit ∧
      (becomeFollower k m.term m.mcTerm true).applied = k.applied ∧
      (becomeFollower k m.term m.mcTerm true).saved.commit = k.commit ∧
      (becomeFollower k m.term m.mcTerm true).saved.applied = k.applied := by
    intro k
    unfold becomeFollower
    by_cases hc : k.term < m.term ∨ k.mcTerm < m.mcTerm
    · simp only [if_pos hc]; exact ⟨rfl, rfl, rfl, rfl⟩
    · simp only [if_neg hc]; exact ⟨rfl, rfl, rfl, rfl⟩
  unfold follow
  generalize hn : (if n.mcTerm < m.mcTerm then save { n with mcTerm := m.mcTerm } else n) = k
  have e : k.commit = n.commit ∧ k.applied = n.applied ∧ (k.saved.commit = n.saved.commit ∧ k.saved.applied = n.saved.applied ∨
      k.saved.commit = n.commit ∧ k.saved.applied = n.applied) := by
    rw [← hn]
    split
    · exact ⟨rfl, rfl, .inr ⟨rfl, rfl⟩⟩
    · exact ⟨rfl, rfl, .inl ⟨rfl, rfl⟩⟩
  dsimp only
  split
  · have b := bf k
    exact ⟨by rw [b.1, e.1], by rw [b.2.1, e.2.1], .inr ⟨by rw [b.2.2.1, e.1], by rw [b.2.2.2, e.2.1]⟩⟩
  · exact e

theorem done_ae {n : Node} (h : Done n) (v : Nat) (m : AE) : Done (handleAppendEntries v n m).1 := by
  rcases handleAE_cases v n m with ⟨_, e⟩ | ⟨n1, rej, ns, k, e, _, h2⟩
  · rw [e]; exact h
  · rw [e]
    refine done_commit ?_
    rcases h2 with ⟨_, rfl, _⟩ | ⟨_, rfl, _⟩ | ⟨_, _, log, _, _, _, _, rfl⟩
    · exact .inl h.2
    · have f := follow_commit { n with commit := max n.commit (min m.commit (commonPrefix m.terms (terms n.log))) } m
      rcases f.2.2 with f2 | f2
      · exact .inl (by rw [f2.1, f2.2]; exact h.2)
      · exact .inr ⟨by rw [f2.1, f.1]; exact Nat.le_refl _, by rw [f2.2, f.2.1]⟩
    · have f := follow_commit { n with commit := max n.commit (min m.commit (commonPrefix m.terms (terms n.log))) } m
      dsimp only
      rcases f.2.2 with f2 | f2
      · exact .inl (by rw [f2.1, f2.2]; exact h.2)
      · exact .inr ⟨by rw [f2.1]; exact Nat.le_max_left _ _, by rw [f2.2, f.2.1]⟩

theorem done_leader {mem : List Nat} {noop : Nat} {n n' : Node} (h : Done n) (hb : becomeLeader mem noop n = some n') :
    Done n' := by
  unfold becomeLeader at hb
  simp only [Option.ite_none_left_eq_some] at hb
  obtain ⟨_, _, _, hb⟩ := hb
  split at hb
  · cases hb
    refine done_save (And.left (done_commit ?_))
    exact Or.inl h.2
  · cases hb
    exact done_save h.1

theorem done_tr {mem : List Nat} {s : Sys} {a : Action} {v : Nat} {n' : Node} {ms : List Msg}
    (F : ∀ u, Done (s.nodes u)) (h : Tr mem s a v n' ms) : Done n' := by
  have hf := F v
  cases h with
  | timeout hv hr hb =>
    rcases beginElection_eq hv hr hb with ⟨_, h2, _⟩ | ⟨_, rfl, _⟩
    · exact done_leader hf h2
    · exact hf
  | preVote => exact hf
  | stepDown => exact done_follower hf _ _ _
  | reqVote hv hk hne =>
    rename_i k noop st nf fo m
    have dec : ∀ n1 : Node, Done n1 → Done (decideVote n1 m).1 := by
      intro n1 k1
      unfold decideVote
      split
      · exact done_save (n := { n1 with vote := some m.src }) k1.1
      · exact done_save k1.1
    unfold handleRequestVote
    dsimp only
    split
    · exact hf
    · split
      · exact done_save hf.1
      · split
        · exact dec _ (done_follower hf _ _ _)
        · split
          · exact hf
          · exact dec _ hf
  | vote hv hk hto ht =>
    rename_i k noop st nf fo m
    have c := countVote_eq v (s.nodes v) m
    have hc : Done (countVote v (s.nodes v) m) := by
      obtain ⟨_, _, _, _, _, c6, _, c8, c9, _⟩ := c
      exact ⟨by rw [c8, c9]; exact hf.1, by rw [c6]; exact hf.2⟩
    rcases tallyVote_cases ht with rfl | ⟨T, mc, sv, hT, n1, rfl, hn1⟩ | ⟨hr, hterm, hg, h | ⟨hb, hq⟩⟩
    · exact hf
    · rcases hn1 with ⟨rfl, _⟩ | ⟨rfl, _⟩
      · exact done_follower hf _ _ _
      · exact done_follower hc _ _ _
    · rw [h]; exact hc
    · exact done_leader hc hb
  | ae => exact done_ae hf _ _
  | ack hv hk hto =>
    rename_i k noop st nf fo m
    rcases handleAck_cases mem v (s.nodes v) m nf fo with ⟨mc, _, e, _⟩ | e | ⟨_, _, x, _, e | e⟩
    · rw [e]; exact done_follower hf _ _ _
    · rw [e]; exact hf
    · rw [e]; exact hf
    · rw [e]
      rcases leaderAdvance_cases mem { s.nodes v with peers := setMatch (s.nodes v).peers m.src x } nf with e2 | ⟨i, _, _, _, _, _, e2⟩
      · rw [e2]; exact hf
      · rw [e2]; exact done_commit (.inl hf.2)
  | client hv hr =>
    unfold replicateBatch
    dsimp only
    split
    · exact done_commit (.inl hf.2)
    · exact hf
  | send => exact hf
  | join => exact hf
  | leave => exact hf
  | crash => exact ⟨hf.2, hf.2⟩

theorem done_run {mem : List Nat} : ∀ (as : List Action) {s s' : Sys}, (∀ u, Done (s.nodes u)) →
    run mem s as = some s' → ∀ u, Done (s'.nodes u)
  | [], _, _, h, hr => by cases hr; exact h
  | a :: as, s, s', h, hr => by
    simp only [run, Option.bind_eq_some_iff] at hr
    obtain ⟨s1, h1, h2⟩ := hr
    obtain ⟨v, n', ms, t, rfl⟩ := step_tr h1
    refine done_run as (fun u => ?_) h2
    by_cases e : u = v
    · subst e; rw [put_nodes_self]; exact done_tr h t
    · rw [put_nodes_ne e]; exact h u

end Verif.Raft

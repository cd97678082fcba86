import Verif.Spec.PreVote
import Verif.Proofs.RaftFit
/- A schedule by which a candidate wins its election and commits (C126). -/
namespace Verif.Raft

/-- Steps of nodes of Q only, each action allowed by P. -/
inductive Path (P : Action → Prop) (mem Q : List Nat) : Sys → Sys → Prop where
  | refl (s : Sys) : Path P mem Q s s
  | tail {s s' s'' : Sys} {a : Action} : Path P mem Q s s' → Within Q s' a → P a → step mem s' a = some s'' →
    Path P mem Q s s''

theorem Path.trans {P : Action → Prop} {mem Q : List Nat} {a b c : Sys} (h1 : Path P mem Q a b)
    (h2 : Path P mem Q b c) : Path P mem Q a c := by
  induction h2 with
  | refl => exact h1
  | tail _ w p hs ih => exact .tail ih w p hs

theorem Path.one {P : Action → Prop} {mem Q : List Nat} {s s' : Sys} {a : Action} (w : Within Q s a) (p : P a)
    (h : step mem s a = some s') : Path P mem Q s s' := .tail (.refl s) w p h

theorem Path.mono {P P' : Action → Prop} {mem Q : List Nat} {a b : Sys} (h : ∀ x, P x → P' x)
    (hp : Path P mem Q a b) : Path P' mem Q a b := by
  induction hp with
  | refl => exact .refl _
  | tail _ w p hs ih => exact .tail ih w (h _ p) hs

/-- Neither a timeout nor the end of a candidacy. -/
def Plain : Action → Prop
  | .timeout _ _ => False
  | .preVote _ => False
  | _ => True

theorem Path.deliver {mem Q : List Nat} {s : Sys} {v noop : Nat} {m : Msg} {r : Node × List Msg} (hm : m ∈ s.msgs)
    (hv : v ∈ mem) (hq : v ∈ Q) (hs : m.src.1 ∈ Q) (ht : m.toward v = true)
    (hr : receive mem v noop (s.nodes v) false false false m = some r) :
    Path Plain mem Q s (s.put mem v r.1 r.2) := by
  obtain ⟨k, hk, he⟩ := List.getElem_of_mem hm
  have hk2 : s.msgs[k]? = some m := by rw [List.getElem?_eq_getElem hk, he]
  refine .one (a := .deliver v k noop false false false) ⟨hq, m, hk2, hs⟩ trivial ?_
  simp only [step, hk2]
  rw [if_pos ⟨hv, ht⟩, hr]
  rfl

section
variable {mem Q : List Nat}

/-- A vote that is given and counted. -/
theorem vote_round {s : Sys} {v q : Nat} (n : Node) (rv : ReqVote) (hn : s.nodes v = n) (hv : v ∈ mem) (hvQ : v ∈ Q)
    (hq : q ∈ mem) (hqQ : q ∈ Q) (hne : q ≠ v)
    (hrv : rv = ⟨(v, n.inc), n.term, n.log.length, lastTerm n.log, n.mcTerm⟩) (hreq : Msg.reqVote rv ∈ s.msgs)
    (hc : n.role = .candidate) (hy : q ∉ n.yes) (hno : n.no = [])
    (ht : (s.nodes q).term < n.term) (hl : (s.nodes q).role ≠ .leader) (hmc : (s.nodes q).mcTerm ≤ n.mcTerm)
    (hlog : AsUpToDate n.log (s.nodes q).log) (noop : Nat) (n' : Node)
    (hn' : (if quorum mem false ≤ n.yes.length + 1 then becomeLeader mem noop { n with yes := n.yes ++ [q] }
      else some { n with yes := n.yes ++ [q] }) = some n') :
    ∃ s', Path Plain mem Q s s' ∧ s'.nodes v = n' ∧ (s'.nodes q).term ≤ n.term ∧
      (∀ u, u ≠ v → u ≠ q → s'.nodes u = s.nodes u) ∧ Msg.reqVote rv ∈ s'.msgs := by
  have hup : logUpToDateAsOurs (becomeFollower (s.nodes q) rv.term rv.mcTerm false) rv = true := by
    subst hrv
    have h1 : (becomeFollower (s.nodes q) n.term n.mcTerm false) =
        { s.nodes q with role := .follower, term := n.term, vote := none, mcTerm := max (s.nodes q).mcTerm n.mcTerm } := by
      unfold becomeFollower; simp [ht]
    simp only [h1, logUpToDateAsOurs]
    rw [if_neg (show ¬ n.mcTerm < max (s.nodes q).mcTerm n.mcTerm by omega), if_neg (Nat.lt_irrefl _)]
    split
    · rfl
    · rcases hlog with h | ⟨h1, h2⟩
      · rw [if_pos h]
      · rw [if_neg (by omega), if_neg (by omega)]; simpa using h2
  have hh : handleRequestVote q (s.nodes q) rv false =
      (save { becomeFollower (s.nodes q) rv.term rv.mcTerm false with vote := some rv.src },
        ⟨(q, (s.nodes q).inc), (s.nodes q).term, rv.src, rv.term, true, (s.nodes q).mcTerm⟩) := by
    unfold handleRequestVote
    have a1 : ¬ rv.term < (s.nodes q).term := by rw [hrv]; exact Nat.not_lt.2 (Nat.le_of_lt ht)
    have a2 : ¬ ((s.nodes q).role = .leader ∨ (false : Bool) = true) := by simp [hl]
    have a3 : (s.nodes q).term < rv.term := by rw [hrv]; exact ht
    simp only [if_neg a1, if_neg a2, if_pos a3, decideVote, hup, if_true]
    have a4 : (becomeFollower (s.nodes q) rv.term rv.mcTerm false).term = rv.term := by
      unfold becomeFollower; simp [a3]
    simp [save, a4]
  have p1 := Path.deliver (mem := mem) (Q := Q) (s := s) (v := q) (noop := 0) hreq hq hqQ
    (by show rv.src.1 ∈ Q; rw [hrv]; exact hvQ) (by show decide (rv.src.1 ≠ q) = true; rw [hrv]; simpa using fun e => hne e.symm)
    (r := ((handleRequestVote q (s.nodes q) rv false).1, [.vote (handleRequestVote q (s.nodes q) rv false).2])) rfl
  rw [hh] at p1
  dsimp only at p1
  generalize hs1 : s.put mem q (save { becomeFollower (s.nodes q) rv.term rv.mcTerm false with vote := some rv.src })
    [.vote ⟨(q, (s.nodes q).inc), (s.nodes q).term, rv.src, rv.term, true, (s.nodes q).mcTerm⟩] = s1 at p1
  have hv1 : s1.nodes v = n := by rw [← hs1, put_nodes_ne (fun e => hne e.symm), hn]
  have hq1 : (s1.nodes q).term = n.term := by
    rw [← hs1, put_nodes_self]
    subst hrv
    show (becomeFollower (s.nodes q) n.term n.mcTerm false).term = n.term
    unfold becomeFollower; simp [ht]
  have hm1 : Msg.vote ⟨(q, (s.nodes q).inc), (s.nodes q).term, rv.src, rv.term, true, (s.nodes q).mcTerm⟩ ∈ s1.msgs := by
    rw [← hs1]; exact mem_put_msgs.2 (.inr (List.mem_singleton.2 rfl))
  have htal : tallyVote mem v noop n ⟨(q, (s.nodes q).inc), (s.nodes q).term, rv.src, rv.term, true, (s.nodes q).mcTerm⟩
      false = some n' := by
    subst hrv
    unfold tallyVote
    dsimp only
    rw [if_neg (Nat.lt_irrefl _), if_neg (Nat.lt_irrefl _), if_neg (by rw [hc]; simp), if_neg (by simpa using hq),
      if_neg (by intro h; omega), if_neg (by intro h; omega)]
    have hcv : countVote v n ⟨(q, (s.nodes q).inc), (s.nodes q).term, (v, n.inc), n.term, true, (s.nodes q).mcTerm⟩ =
        { n with yes := n.yes ++ [q] } := by
      unfold countVote
      rw [if_pos ⟨rfl, hy, by rw [hno]; exact List.not_mem_nil⟩]
      rfl
    rw [hcv]
    dsimp only
    rw [List.length_append, List.length_singleton, hno]
    by_cases hqu : quorum mem false ≤ n.yes.length + 1
    · rw [if_pos hqu] at hn' ⊢; rw [hno] at hn'; exact hn'
    · rw [if_neg hqu] at hn' ⊢
      have hq0 : ¬ quorum mem false ≤ ([] : List Nat).length := by
        show ¬ (mem.length / 2 + 1 ≤ 0); omega
      rw [if_neg hq0]; rw [hno] at hn'; exact hn'
  have p2 := Path.deliver (mem := mem) (Q := Q) (s := s1) (v := v) (noop := noop) hm1 hv hvQ hqQ
    (by show decide (rv.src.1 = v) = true; rw [hrv]; simp)
    (r := (n', [])) (by rw [hv1]; show (tallyVote mem v noop n _ false).map _ = _; rw [htal]; rfl)
  refine ⟨_, p1.trans p2, put_nodes_self, ?_, fun u h1 h2 => ?_, ?_⟩
  · rw [put_nodes_ne hne, hq1]; exact Nat.le_refl _
  · rw [put_nodes_ne h1, ← hs1, put_nodes_ne h2]
  · rw [← hs1]
    exact mem_put_msgs.2 (.inl (mem_put_msgs.2 (.inl hreq)))

/-- What the voters have to be like. -/
structure Voter (n : Node) (q : Node) : Prop where
  term : q.term < n.term
  role : q.role ≠ .leader
  mc : q.mcTerm ≤ n.mcTerm
  log : AsUpToDate n.log q.log

/-- All votes but the last. -/
theorem votes (n : Node) (rv : ReqVote) (v : Nat) (hv : v ∈ mem) (hvQ : v ∈ Q) (hc : n.role = .candidate)
    (hno : n.no = []) (hrv : rv = ⟨(v, n.inc), n.term, n.log.length, lastTerm n.log, n.mcTerm⟩) :
    ∀ (D : List Nat) (s : Sys) (ys : List Nat), D.Nodup → (∀ q ∈ D, q ∈ mem ∧ q ∈ Q ∧ q ≠ v ∧ q ∉ ys) →
      (∀ q ∈ D, Voter n (s.nodes q)) → s.nodes v = { n with yes := ys } → Msg.reqVote rv ∈ s.msgs →
      ys.length + D.length < quorum mem false →
      ∃ s', Path Plain mem Q s s' ∧ s'.nodes v = { n with yes := ys ++ D } ∧ (∀ q ∈ D, (s'.nodes q).term ≤ n.term) ∧
        (∀ u, u ≠ v → u ∉ D → s'.nodes u = s.nodes u) ∧ Msg.reqVote rv ∈ s'.msgs
  | [], s, ys, _, _, _, hn, hr, _ => ⟨s, .refl s, by simpa using hn, by simp, fun _ _ _ => rfl, hr⟩
  | q :: D, s, ys, hnd, hD, hV, hn, hr, hlt => by
    have hq := hD q List.mem_cons_self
    have hw := hV q List.mem_cons_self
    rw [List.length_cons] at hlt
    obtain ⟨s1, p1, a1, a2, a3, a4⟩ := vote_round (mem := mem) (Q := Q) { n with yes := ys } rv hn hv hvQ hq.1 hq.2.1
      hq.2.2.1 hrv hr hc hq.2.2.2 hno hw.term hw.role hw.mc hw.log 0 { n with yes := ys ++ [q] }
      (by rw [if_neg (show ¬ quorum mem false ≤ ys.length + 1 by omega)])
    rw [List.nodup_cons] at hnd
    obtain ⟨s2, p2, b1, b2, b3, b4⟩ := votes n rv v hv hvQ hc hno hrv D s1 (ys ++ [q]) hnd.2
      (fun x hx => by
        have h := hD x (List.mem_cons_of_mem _ hx)
        refine ⟨h.1, h.2.1, h.2.2.1, ?_⟩
        rw [List.mem_append, List.mem_singleton]
        rintro (e | e)
        · exact h.2.2.2 e
        · exact hnd.1 (e ▸ hx))
      (fun x hx => by
        rw [a3 x (hD x (List.mem_cons_of_mem _ hx)).2.2.1 (fun e => hnd.1 (e ▸ hx))]
        exact hV x (List.mem_cons_of_mem _ hx))
      a1 a4 (by rw [List.length_append, List.length_singleton]; omega)
    refine ⟨s2, p1.trans p2, by rw [b1, List.append_assoc]; rfl, fun x hx => ?_, fun u h1 h2 => ?_, b4⟩
    · rcases List.mem_cons.1 hx with rfl | hx
      · rw [b3 x hq.2.2.1 hnd.1]; exact a2
      · exact b2 x hx
    · rw [b3 u h1 (fun h => h2 (List.mem_cons_of_mem _ h)), a3 u h1 (fun h => h2 (h ▸ List.mem_cons_self))]

/-- The election is won. -/
theorem wins {s : Sys} {v : Nat} (n : Node) (hn : s.nodes v = n) (hv : v ∈ mem) (hvQ : v ∈ Q) (hc : n.role = .candidate)
    (hyes : n.yes = [v]) (hno : n.no = []) (hmc : n.mcTerm < n.term)
    (hr : Msg.reqVote ⟨(v, n.inc), n.term, n.log.length, lastTerm n.log, n.mcTerm⟩ ∈ s.msgs)
    (D : List Nat) (hnd : D.Nodup) (hD : ∀ q ∈ D, q ∈ mem ∧ q ∈ Q ∧ q ≠ v) (hV : ∀ q ∈ D, Voter n (s.nodes q))
    (hlen : D.length + 1 = quorum mem false) (h2 : 2 ≤ mem.length) (noop : Nat) :
    ∃ s' n', Path Plain mem Q s s' ∧ s'.nodes v = n' ∧ n'.role = .leader ∧ n'.term = n.term ∧ n'.inc = n.inc ∧
      n'.log = n.log ++ [⟨n.term, noop⟩] ∧ n'.peers = n.peers ∧ n'.commit = n.commit ∧ n'.applied = n.applied ∧
      ∀ q ∈ D, (s'.nodes q).term ≤ n.term := by
  have hq2 : 2 ≤ quorum mem false := by show 2 ≤ mem.length / 2 + 1; omega
  rcases List.eq_nil_or_concat D with rfl | ⟨E, q, rfl⟩
  · simp at hlen; omega
  rw [List.concat_eq_append] at *
  rw [List.length_append, List.length_singleton] at hlen
  have hnd2 := List.nodup_append.1 hnd
  have hE : ∀ x ∈ E, x ∈ E ++ [q] := fun x hx => List.mem_append_left _ hx
  have hqE : q ∉ E := fun h => (hnd2.2.2 q h q (List.mem_singleton.2 rfl)) rfl
  have hqq : q ∈ E ++ [q] := List.mem_append_right _ (List.mem_singleton.2 rfl)
  obtain ⟨s1, p1, a1, a2, a3, a4⟩ := votes (mem := mem) (Q := Q) n _ v hv hvQ hc hno rfl E s [v] hnd2.1
    (fun x hx => ⟨(hD x (hE x hx)).1, (hD x (hE x hx)).2.1, (hD x (hE x hx)).2.2, by
      rw [List.mem_singleton]; exact (hD x (hE x hx)).2.2⟩)
    (fun x hx => hV x (hE x hx)) (by rw [hn]; cases n; simp_all) hr (by rw [List.length_singleton]; omega)
  have hw : Voter n (s1.nodes q) := by rw [a3 q (hD q hqq).2.2 hqE]; exact hV q hqq
  have hbl : becomeLeader mem noop { n with yes := [v] ++ E ++ [q] } =
      some (save { n with yes := [v] ++ E ++ [q], role := .leader, mcTerm := n.term, log := n.log ++ [⟨n.term, noop⟩] }) := by
    unfold becomeLeader
    dsimp only
    rw [if_neg (by rw [hc]; simp), if_neg (by omega), if_neg (by intro h; omega), if_neg (show ¬ mem.length = 1 by omega),
      if_neg (show ¬ n.mcTerm = n.term by omega)]
  obtain ⟨s2, p2, b1, b2, b3, _⟩ := vote_round (mem := mem) (Q := Q) { n with yes := [v] ++ E } _ a1 hv hvQ
    (hD q hqq).1 (hD q hqq).2.1 (hD q hqq).2.2 rfl a4 hc
    (by
      rw [List.mem_append, List.mem_singleton]
      rintro (e | e)
      · exact (hD q hqq).2.2 e
      · exact hqE e) hno hw.term hw.role hw.mc hw.log noop _
    (by
      dsimp only
      rw [if_pos (by rw [List.length_append, List.length_singleton]; omega)]
      exact hbl)
  refine ⟨s2, _, p1.trans p2, b1, rfl, rfl, rfl, rfl, rfl, rfl, rfl, fun x hx => ?_⟩
  by_cases hxq : x = q
  · subst hxq; exact b2
  · rw [b3 x (hD x hx).2.2 hxq]
    refine a2 x ?_
    rcases List.mem_append.1 hx with h | h
    · exact h
    · exact absurd (List.mem_singleton.1 h) hxq

end

end Verif.Raft

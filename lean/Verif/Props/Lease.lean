import Verif.Proofs.LeaseApply
/-
C85 and C86: reads served by the leader alone.
-/
namespace Verif.Lease
open Verif.Raft

/-! ### A cluster of three used in the examples -/

/-- Three members with a heartbeat of 10, a drift bound of 1 and minimal election time 100. -/
def three : Cfg :=
  { mem := [1, 2, 3], hb := fun _ => 10, drift := fun _ => 1, minElec := fun _ => 100, clk := fun _ t => t }

theorem three_mono : Mono three := fun _ _ _ h => h

theorem three_drift : Drift three 0 := by
  intro u v a b _ _
  show b + a ≤ a + b + 0
  omega

/-- Node 1 is elected, commits its first entry and a client's, and has heard from node 2. -/
def goodRun : List (Nat × Act) :=
  [(0, .preVoteWon 1),
   (100, .raft (.timeout 1 7)),
   (101, .raft (.deliver 2 0 0 false false false)),
   (101, .raft (.deliver 3 0 0 false false false)),
   (102, .raft (.deliver 1 1 7 false false false)),
   (103, .raft (.client 1 [42])),
   (104, .send 1 1 2 [(2, 0), (3, 0)] 0),
   (105, .raft (.deliver 2 3 0 false false false)),
   (106, .raft (.deliver 1 4 0 (sticky three 1 {} 106) false false))]

/-- The run meets the conditions of the theorems below, and a read is served at 107. -/
theorem goodRun_ok : AllT (fun c => StampSoon c 0) three {} goodRun ∧ AllT NoShadow three {} goodRun ∧
    AllT SlowRestart three {} goodRun ∧ AllT NoLateAnswer three {} goodRun ∧ Raftlike three goodRun := by
  decide +kernel

/-! ### C85: no newer leader, and nothing newer applied -/

/-- C85, first half. Partial: holds when every ping is stamped within `δ` of being sent, shadow
replicas do not acknowledge, and no node that heard from a leader within its minimal election
time restarts or receives an answer of a later term. The rate difference `eps` of the clocks and
`δ` together must be within the two heartbeats the code allows for. -/
theorem C85_no_newer_leader_partial {c : Cfg} {δ eps : Nat} (hm : Mono c) (hd : Drift c eps)
    {as : List (Nat × Act)} {ts : TSys} (h : trun c {} as = some ts)
    (h1 : AllT (fun c => StampSoon c δ) c {} as) (h2 : AllT NoShadow c {} as)
    (h3 : AllT SlowRestart c {} as) (h4 : AllT NoLateAnswer c {} as)
    {v t hour u : Nat} {nf : Bool} {order : List (PeerID × Info)} (hhb : δ + eps ≤ 2 * c.hb v)
    (ht : ts.now ≤ t) (hord : order.Perm (ts.loc v).info)
    (hs : canServe c ts v t hour nf order = some u) :
    ∀ T p Q, (T, p, Q) ∈ ts.sys.hist.elected →
      T ≤ (ts.sys.nodes v).term ∧ (T = (ts.sys.nodes v).term → p = (v, (ts.sys.nodes v).inc)) := by
  have I := (LInv.run hm as (linv_init c δ) h h1 h2 h3 h4).1
  intro T p Q hel
  have hr := canServe_leader hs
  have hT : T ≤ (ts.sys.nodes v).term := by
    by_cases hlen : 1 < c.mem.length
    · obtain ⟨R, hR, hq⟩ := lease_quorum hm hd hhb I ht hlen hord hs
      refine no_newer I hq (fun r hr => ⟨(hR r hr).1, (hR r hr).2.1, ?_⟩) rfl T ⟨p, Q, hel⟩
      exact (hR r hr).2.2 ts.now (Nat.le_refl _) (Or.inl (hm v _ _ ht))
    · exact no_newer_single I.inv1 (leader_mem I.inv1 hr) (by omega) T ⟨p, Q, hel⟩
  refine ⟨hT, fun he => ?_⟩
  obtain ⟨Q', hQ'⟩ := I.inv1.leaderEl v hr
  rw [he] at hel
  exact I.inv1.elUniq _ _ _ _ _ hel hQ'

/-- C85, second half: every entry any node has ever applied is applied at the serving leader, at
the same position of its log. Partial: conditions of `C85_no_newer_leader_partial` and of C20. -/
theorem C85_read_latest_partial {c : Cfg} {δ eps : Nat} (hm : Mono c) (hd : Drift c eps)
    {as : List (Nat × Act)} {ts : TSys} (h : trun c {} as = some ts)
    (h1 : AllT (fun c => StampSoon c δ) c {} as) (h2 : AllT NoShadow c {} as)
    (h3 : AllT SlowRestart c {} as) (h4 : AllT NoLateAnswer c {} as)
    (h5 : AllT (OnRaft FullSend) c {} as) (h6 : AllT (OnRaft OneRecord) c {} as)
    (h7 : AllT (OnRaft AckOfTerm) c {} as)
    {v t hour u : Nat} {nf : Bool} {order : List (PeerID × Info)} (hhb : δ + eps ≤ 2 * c.hb v)
    (ht : ts.now ≤ t) (hord : order.Perm (ts.loc v).info)
    (hs : canServe c ts v t hour nf order = some u) :
    ∀ w i e, (w, i, e) ∈ ts.sys.hist.applied →
      1 ≤ i ∧ i ≤ (ts.sys.nodes v).applied ∧ (ts.sys.nodes v).log[i - 1]? = some e := by
  have hno := C85_no_newer_leader_partial hm hd h h1 h2 h3 h4 hhb ht hord hs
  have I := (LInv.run hm as (linv_init c δ) h h1 h2 h3 h4).1
  have F := FInv.run as (finv_init c.mem) h h5 h6 h7
  have hr := canServe_leader hs
  intro w i e hap
  obtain ⟨k, hk, hk1, hk2, hk3⟩ := I.noop v hr
  refine all_applied F.i1 F.i2 F.i3 F.k hr rfl (fun T' hT' => ?_) hk1 hk2 hk3 ?_ hap
  · obtain ⟨p, Q, hQ⟩ := hT'
    exact (hno T' p Q hQ).1
  · by_cases hlen : 1 < c.mem.length
    · unfold canServe at hs
      rw [if_neg (by simp [hr]), if_neg (by omega), hk] at hs
      dsimp only at hs
      split at hs
      · cases hs
      · omega
    · have := leader_mem I.inv1 hr
      have h1 : c.mem.length = 1 := by
        match hmem : c.mem with
        | [] => rw [hmem] at this; cases this
        | [_] => rfl
        | _ :: _ :: _ => rw [hmem] at hlen; simp at hlen
      rw [(F.k.ac v).1, F.single h1 v hr]
      exact hk2

/-- C86: until the time returned, while the node stays in its term, no later leader is elected.
Partial: conditions of `C85_no_newer_leader_partial`, also after the read; a node that has left
its term breaks the promise (`C86_step_down_counterexample`). -/
theorem C86_good_until_partial {c : Cfg} {δ eps : Nat} (hm : Mono c) (hd : Drift c eps)
    {as bs : List (Nat × Act)} {ts ts2 : TSys} (h : trun c {} as = some ts) (hb : trun c ts bs = some ts2)
    (h1 : AllT (fun c => StampSoon c δ) c {} (as ++ bs)) (h2 : AllT NoShadow c {} (as ++ bs))
    (h3 : AllT SlowRestart c {} (as ++ bs)) (h4 : AllT NoLateAnswer c {} (as ++ bs))
    {v t hour u : Nat} {nf : Bool} {order : List (PeerID × Info)} (hhb : δ + eps ≤ 2 * c.hb v)
    (ht : ts.now ≤ t) (hord : order.Perm (ts.loc v).info)
    (hs : canServe c ts v t hour nf order = some u) (hu : c.clk v ts2.now < u)
    (hterm : (ts2.sys.nodes v).term = (ts.sys.nodes v).term) :
    ∀ T p Q, (T, p, Q) ∈ ts2.sys.hist.elected → T ≤ (ts.sys.nodes v).term := by
  obtain ⟨a1, b1⟩ := allT_split as bs h h1
  obtain ⟨a2, b2⟩ := allT_split as bs h h2
  obtain ⟨a3, b3⟩ := allT_split as bs h h3
  obtain ⟨a4, b4⟩ := allT_split as bs h h4
  have I := (LInv.run hm as (linv_init c δ) h a1 a2 a3 a4).1
  have I2 := (LInv.run hm bs I hb b1 b2 b3 b4).1
  obtain ⟨hacc, hnow⟩ := accs_run bs hb
  have hr := canServe_leader hs
  intro T p Q hel
  by_cases hlen : 1 < c.mem.length
  · obtain ⟨R, hR, hq⟩ := lease_quorum hm hd hhb I ht hlen hord hs
    refine no_newer I2 hq (fun r hr => ⟨hacc r (hR r hr).1, (hR r hr).2.1, ?_⟩) hterm T ⟨p, Q, hel⟩
    exact (hR r hr).2.2 ts2.now hnow (Or.inr hu)
  · rw [← hterm]
    exact no_newer_single I2.inv1 (leader_mem I.inv1 hr) (by omega) T ⟨p, Q, hel⟩

/-- The hypotheses can be met: the read at 107 sees both entries and is good until 184. -/
example : ∃ ts, trun three {} goodRun = some ts ∧ canServe three ts 1 107 3600000 false (ts.loc 1).info = some 184 ∧
    (∀ T p Q, (T, p, Q) ∈ ts.sys.hist.elected → T ≤ (ts.sys.nodes 1).term) ∧
    (∀ w i e, (w, i, e) ∈ ts.sys.hist.applied → i ≤ (ts.sys.nodes 1).applied) ∧
    (1, 2, ⟨1, 42⟩) ∈ ts.sys.hist.applied := by
  have hb : (trun three {} goodRun).any (fun ts =>
      canServe three ts 1 107 3600000 false (ts.loc 1).info == some 184 && decide (ts.now ≤ 107) &&
      ts.sys.hist.applied.contains (1, 2, ⟨1, 42⟩)) = true := by decide +kernel
  match h : trun three {} goodRun with
  | none => rw [h] at hb; cases hb
  | some ts =>
    rw [h] at hb
    simp only [Option.any_some, Bool.and_eq_true, beq_iff_eq, decide_eq_true_eq, List.contains_iff_mem] at hb
    obtain ⟨⟨hb1, hb2⟩, hb3⟩ := hb
    obtain ⟨h1, h2, h3, h4, h5, h6, h7⟩ := goodRun_ok
    have hhb : 0 + 0 ≤ 2 * three.hb 1 := by decide
    exact ⟨ts, rfl, hb1,
      fun T p Q hel => (C85_no_newer_leader_partial three_mono three_drift h h1 h2 h3 h4 hhb hb2 (List.Perm.refl _) hb1 T p Q hel).1,
      fun w i e hap => (C85_read_latest_partial three_mono three_drift h h1 h2 h3 h4 h5 h6 h7 hhb hb2 (List.Perm.refl _) hb1 w i e hap).2.1,
      hb3⟩

/-- And for C86: node 3, which has won its pre-vote at 107, asks node 2 at 207, in vain; the read
at 197, on the answer of 192, is good until 271. -/
example : ∃ ts ts2, trun three {} (goodRun ++ [(107, .preVoteWon 3), (191, .send 1 1 0 [(2, 0)] 0),
      (192, .raft (.deliver 2 5 0 true false false)), (193, .raft (.deliver 1 6 0 false false false))]) = some ts ∧
    trun three ts [(207, .raft (.timeout 3 8)), (208, .raft (.deliver 2 7 0 true false false)),
      (209, .raft (.deliver 3 8 8 false false false))] = some ts2 ∧
    canServe three ts 1 197 3600000 false (ts.loc 1).info = some 271 ∧
    (∀ T p Q, (T, p, Q) ∈ ts2.sys.hist.elected → T ≤ (ts.sys.nodes 1).term) ∧
    (ts2.sys.nodes 3).role = .candidate ∧ (ts2.sys.nodes 3).term = 2 := by
  have h0 : (fun as : List (Nat × Act) => AllT (fun c => StampSoon c 0) three {} as ∧ AllT NoShadow three {} as ∧
      AllT SlowRestart three {} as ∧ AllT NoLateAnswer three {} as)
      ((goodRun ++ [(107, .preVoteWon 3), (191, .send 1 1 0 [(2, 0)] 0),
      (192, .raft (.deliver 2 5 0 true false false)), (193, .raft (.deliver 1 6 0 false false false))]) ++
      [(207, .raft (.timeout 3 8)), (208, .raft (.deliver 2 7 0 true false false)),
      (209, .raft (.deliver 3 8 8 false false false))]) := by decide +kernel
  have h : (trun three {} (goodRun ++ [(107, .preVoteWon 3), (191, .send 1 1 0 [(2, 0)] 0),
      (192, .raft (.deliver 2 5 0 true false false)), (193, .raft (.deliver 1 6 0 false false false))])).any (fun ts =>
      (trun three ts [(207, .raft (.timeout 3 8)), (208, .raft (.deliver 2 7 0 true false false)),
        (209, .raft (.deliver 3 8 8 false false false))]).any (fun ts2 =>
      decide (ts.now ≤ 197) && (canServe three ts 1 197 3600000 false (ts.loc 1).info == some 271) &&
      decide (three.clk 1 ts2.now < 271) && decide ((ts2.sys.nodes 1).term = (ts.sys.nodes 1).term) &&
      decide ((ts2.sys.nodes 3).role = .candidate) && decide ((ts2.sys.nodes 3).term = 2))) = true := by
    decide +kernel
  generalize hA : goodRun ++ _ = as at h h0 ⊢
  generalize hB : [(207, Act.raft (.timeout 3 8)), _, _] = bs at h h0 ⊢
  match h1 : trun three {} as with
  | none => rw [h1] at h; cases h
  | some ts =>
    rw [h1] at h
    simp only [Option.any_some] at h
    match h2 : trun three ts bs with
    | none => rw [h2] at h; cases h
    | some ts2 =>
      rw [h2] at h
      simp only [Option.any_some, Bool.and_eq_true, beq_iff_eq, decide_eq_true_eq] at h
      obtain ⟨⟨⟨⟨⟨h3, h4⟩, h5⟩, h6⟩, h7⟩, h8⟩ := h
      obtain ⟨k1, k2, k3, k4⟩ := h0
      exact ⟨ts, ts2, rfl, h2, h4,
        C86_good_until_partial three_mono three_drift h1 h2 k1 k2 k3 k4 (by decide) h3 (List.Perm.refl _) h4 h5 h6,
        h7, h8⟩

/-! ### What goes wrong without the conditions

In each run node 3 wins its pre-vote at a moment when node 2 has not heard from a leader for
more than the minimal election time, so that node 2 would grant it. -/

/-- Node 3 stands at 306, gets the vote of node 2 (process `i2`) by request `n`, and commits. -/
def takeover (n i2 : Nat) : List (Nat × Act) :=
  [(306, .raft (.timeout 3 8)),
   (307, .raft (.deliver 2 n 0 false false false)),
   (308, .raft (.deliver 3 (n + 1) 8 false false false)),
   (309, .raft (.client 3 [43])),
   (310, .send 3 3 2 [(1, 0), (2, i2)] 0),
   (311, .raft (.deliver 2 (n + 2) 0 false false false)),
   (312, .raft (.deliver 3 (n + 3) 0 false false false))]

/-- Node 1 is elected and sends its two entries to the others, stamping the pings `lag` later. -/
def start (lag : Nat) : List (Nat × Act) :=
  [(0, .preVoteWon 1),
   (100, .raft (.timeout 1 7)),
   (101, .raft (.deliver 2 0 0 false false false)),
   (101, .raft (.deliver 3 0 0 false false false)),
   (102, .raft (.deliver 1 1 7 false false false)),
   (103, .raft (.client 1 [42])),
   (104, .send 1 1 2 [(2, 0), (3, 0)] lag),
   (105, .raft (.deliver 2 3 0 false false false)),
   (105, .raft (.deliver 3 3 0 false false false))]

/-- A check of `Stale` by evaluation. -/
theorem stale_of {c : Cfg} {as : List (Nat × Act)} {v t hour : Nat}
    (h : (trun c {} as).any (fun ts => decide (ts.now ≤ t) &&
      (canServe c ts v t hour false (ts.loc v).info).isSome &&
      ts.sys.hist.applied.any (fun x => decide ((ts.sys.nodes v).applied < x.2.1))) = true) :
    Stale c as v t hour := by
  match hr : trun c {} as with
  | none => rw [hr] at h; cases h
  | some ts =>
    rw [hr] at h
    simp only [Option.any_some, Bool.and_eq_true, decide_eq_true_eq, List.any_eq_true,
      Option.isSome_iff_exists] at h
    obtain ⟨⟨h1, u, h2⟩, ⟨w, i, e⟩, h3, h4⟩ := h
    exact ⟨ts, u, hr, h1, h2, w, i, e, h3, h4⟩

/-- A shadow replica 9, which has no vote, answers the leader. -/
def shadowRun : List (Nat × Act) :=
  start 0 ++ [(106, .raft (.deliver 1 4 0 false false false)), (206, .preVoteWon 3),
   (300, .send 1 1 0 [(9, 0)] 0), (301, .shadow 1 (9, 0))] ++ takeover 7 0

/-- Disagreement: an answer from a non-voting replica extends the lease. All else is in order. -/
theorem C85_shadow_counterexample : Stale three shadowRun 1 313 3600000 ∧
    AllT (fun c => StampSoon c 0) three {} shadowRun ∧ AllT SlowRestart three {} shadowRun ∧
    AllT NoLateAnswer three {} shadowRun ∧ Raftlike three shadowRun :=
  ⟨stale_of (by decide +kernel), by decide +kernel⟩

/-- The broadcast takes 150, the ping is stamped at its end. -/
def lagRun : List (Nat × Act) :=
  start 150 ++ [(206, .preVoteWon 3), (254, .raft (.deliver 1 4 0 false false false))] ++ takeover 6 0

/-- Disagreement: the lease counts from the stamp, which the broadcast takes after sending. -/
theorem C85_stamp_counterexample : Stale three lagRun 1 313 3600000 ∧ AllT NoShadow three {} lagRun ∧
    AllT SlowRestart three {} lagRun ∧ AllT NoLateAnswer three {} lagRun ∧ Raftlike three lagRun :=
  ⟨stale_of (by decide +kernel), by decide +kernel⟩

/-- Node 2 hears from the leader at 301, restarts at 303 and votes at 307. -/
def restartRun : List (Nat × Act) :=
  start 0 ++ [(106, .raft (.deliver 1 4 0 false false false)), (206, .preVoteWon 3),
   (300, .send 1 1 0 [(2, 0)] 0), (301, .raft (.deliver 2 6 0 false false false)),
   (302, .raft (.deliver 1 7 0 false false false)), (303, .raft (.crash 2))] ++ takeover 8 1

/-- Disagreement: a restarted node does not remember when it last heard from a leader. -/
theorem C85_restart_counterexample : Stale three restartRun 1 313 3600000 ∧
    AllT (fun c => StampSoon c 0) three {} restartRun ∧ AllT NoShadow three {} restartRun ∧
    AllT NoLateAnswer three {} restartRun ∧ Raftlike three restartRun :=
  ⟨stale_of (by decide +kernel), by decide +kernel⟩

/-- Node 2 stands in term 1, node 1 is elected in term 2, node 3 stands in term 3, loses its
requests, and has won its pre-vote for term 4 when node 2 hears from node 1 again. -/
def rivals : List (Nat × Act) :=
  [(0, .preVoteWon 2), (100, .raft (.timeout 2 7)), (101, .raft (.deliver 1 0 0 false false false)),
   (101, .preVoteWon 1), (201, .raft (.timeout 1 7)), (202, .raft (.deliver 2 2 0 false false false)),
   (203, .raft (.deliver 1 3 7 false false false)), (204, .raft (.client 1 [42])),
   (205, .send 1 1 2 [(2, 0), (3, 0)] 0), (206, .raft (.deliver 2 4 0 false false false)),
   (206, .raft (.deliver 3 4 0 false false false)), (207, .raft (.deliver 1 5 0 false false false)),
   (307, .preVoteWon 3), (407, .raft (.timeout 3 8)), (507, .raft (.preVote 3)), (507, .preVoteWon 3),
   (600, .send 1 1 0 [(2, 0), (3, 0)] 0), (601, .raft (.deliver 2 8 0 false false false)),
   (602, .raft (.deliver 1 9 0 false false false))]

/-- Node 3 answers node 2's request of term 1, naming term 3: node 2 forgets its leader. -/
def answerRun : List (Nat × Act) :=
  rivals ++ [(603, .raft (.deliver 3 0 0 false false false)), (604, .raft (.deliver 2 10 0 true false false)),
   (607, .raft (.timeout 3 8)), (608, .raft (.deliver 2 11 0 false false false)),
   (609, .raft (.deliver 3 12 8 false false false)), (610, .raft (.client 3 [43])),
   (611, .send 3 3 2 [(1, 0), (2, 0)] 0), (612, .raft (.deliver 2 13 0 false false false)),
   (613, .raft (.deliver 3 14 0 false false false))]

/-- Disagreement: an answer of a later term makes a node forget the leader it has just heard. -/
theorem C85_late_answer_counterexample : Stale three answerRun 1 614 3600000 ∧
    AllT (fun c => StampSoon c 0) three {} answerRun ∧ AllT NoShadow three {} answerRun ∧
    AllT SlowRestart three {} answerRun ∧ Raftlike three answerRun :=
  ⟨stale_of (by decide +kernel), by decide +kernel⟩

/-- After the read at 603 node 1 hears of term 3, steps down, and votes for node 3. -/
def stepDownRun : List (Nat × Act) :=
  [(603, .raft (.deliver 3 8 0 false false false)), (604, .raft (.deliver 1 10 0 false false false)),
   (607, .raft (.timeout 3 8)), (608, .raft (.deliver 1 11 0 false false false)),
   (609, .raft (.deliver 3 12 8 false false false))]
/-- Disagreement: a leader that steps down votes for another at once, its promise still running. -/
theorem C86_step_down_counterexample :
    (∃ ts ts2, trun three {} rivals = some ts ∧ trun three ts stepDownRun = some ts2 ∧
      ts.now ≤ 603 ∧ canServe three ts 1 603 3600000 false (ts.loc 1).info = some 680 ∧
      three.clk 1 ts2.now < 680 ∧ (ts.sys.nodes 1).term = 2 ∧ (4, (3, 0), [3, 1]) ∈ ts2.sys.hist.elected) ∧
    AllT (fun c => StampSoon c 0) three {} (rivals ++ stepDownRun) ∧
    AllT NoShadow three {} (rivals ++ stepDownRun) ∧ AllT SlowRestart three {} (rivals ++ stepDownRun) ∧
    AllT NoLateAnswer three {} (rivals ++ stepDownRun) ∧ Raftlike three (rivals ++ stepDownRun) := by
  refine ⟨?_, by decide +kernel⟩
  have h : (trun three {} rivals).any (fun ts => (trun three ts stepDownRun).any (fun ts2 =>
      decide (ts.now ≤ 603) && (canServe three ts 1 603 3600000 false (ts.loc 1).info == some 680) &&
      decide (three.clk 1 ts2.now < 680) && decide ((ts.sys.nodes 1).term = 2) &&
      ts2.sys.hist.elected.contains (4, (3, 0), [3, 1]))) = true := by decide +kernel
  match h1 : trun three {} rivals with
  | none => rw [h1] at h; cases h
  | some ts =>
    rw [h1] at h
    simp only [Option.any_some] at h
    match h2 : trun three ts stepDownRun with
    | none => rw [h2] at h; cases h
    | some ts2 =>
      rw [h2] at h
      simp only [Option.any_some, Bool.and_eq_true, beq_iff_eq, decide_eq_true_eq, List.contains_iff_mem] at h
      obtain ⟨⟨⟨⟨h3, h4⟩, h5⟩, h6⟩, h7⟩ := h
      exact ⟨ts, ts2, rfl, h2, h3, h4, h5, h6, h7⟩

end Verif.Lease

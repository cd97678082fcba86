import Verif.Proofs.RaftProgress2
import Verif.Proofs.RaftOrder
/- Pre-votes: refinement to Model/Raft, and a schedule that passes them (C126, C127). -/
namespace Verif.PreVote

open Raft (Node Sys PeerID ReqVote Vote Msg Event Action upd quorum lastTerm Entry AsUpToDate put_nodes_self put_nodes_ne)

/-- The pre-vote state after an action of Model/Raft. -/
def pvAfter (s : PSys) (a : Action) (b : Sys) : Nat → PV :=
  match a.event s.base with
  | some (v, e) => if resets (s.base.nodes v) (b.nodes v) e then upd s.pv v {} else s.pv
  | none => s.pv

theorem event_of_step {mem : List Nat} {s s' : Sys} {a : Action} (h : Raft.step mem s a = some s') :
    ∃ v e, a.event s = some (v, e) ∧ (∀ u, u ≠ v → s'.nodes u = s.nodes u) := by
  obtain ⟨v, n', ms, t, rfl⟩ := Raft.step_tr h
  refine ⟨v, ?_⟩
  have hu : ∀ u, u ≠ v → (s.put mem v n' ms).nodes u = s.nodes u := fun u hu => put_nodes_ne hu
  cases t with
  | timeout => exact ⟨_, rfl, hu⟩
  | preVote => exact ⟨_, rfl, hu⟩
  | stepDown => exact ⟨_, rfl, hu⟩
  | reqVote hv hk hne => exact ⟨_, by simp only [Action.event, hk]; rw [if_pos (by simpa [Msg.toward] using hne)], hu⟩
  | vote hv hk hto => exact ⟨_, by simp only [Action.event, hk]; rw [if_pos (by simpa [Msg.toward] using hto)], hu⟩
  | ae hv hk hne => exact ⟨_, by simp only [Action.event, hk]; rw [if_pos (by simpa [Msg.toward] using hne)], hu⟩
  | ack hv hk hto => exact ⟨_, by simp only [Action.event, hk]; rw [if_pos (by simpa [Msg.toward] using hto)], hu⟩
  | client => exact ⟨_, rfl, hu⟩
  | send => exact ⟨_, rfl, hu⟩
  | join => exact ⟨_, rfl, hu⟩
  | leave => exact ⟨_, rfl, hu⟩
  | crash => exact ⟨_, rfl, hu⟩

theorem step_raft {mem : List Nat} {s : PSys} {a : Action} {b : Sys} (hp : Raft.Plain a)
    (h : Raft.step mem s.base a = some b) : step mem s (.raft a) = some { s with base := b, pv := pvAfter s a b } := by
  obtain ⟨v, e, he, _⟩ := event_of_step h
  cases a <;> first | exact hp.elim | (simp only [step, pvAfter, h, he])

theorem step_raft_inv {mem : List Nat} {s s' : PSys} {a : Action} (h : step mem s (.raft a) = some s') :
    Raft.Plain a ∧ ∃ b, Raft.step mem s.base a = some b ∧ s' = { s with base := b, pv := pvAfter s a b } := by
  have hp : Raft.Plain a := by
    cases a <;> first | trivial | (simp [step] at h)
  refine ⟨hp, ?_⟩
  rcases hb : Raft.step mem s.base a with _ | b
  · exfalso
    cases a <;> first | exact hp.elim | (simp [step, hb] at h)
  · rw [step_raft hp hb] at h
    cases h
    exact ⟨b, rfl, rfl⟩

/-! ## Paths -/

inductive Path (mem Q : List Nat) : PSys → PSys → Prop where
  | refl (s : PSys) : Path mem Q s s
  | tail {s s' s'' : PSys} {a : PAction} : Path mem Q s s' → Within Q s' a → step mem s' a = some s'' → Path mem Q s s''

theorem Path.trans {mem Q : List Nat} {a b c : PSys} (h1 : Path mem Q a b) (h2 : Path mem Q b c) : Path mem Q a c := by
  induction h2 with
  | refl => exact h1
  | tail _ w hs ih => exact .tail ih w hs

theorem Path.one {mem Q : List Nat} {s s' : PSys} {a : PAction} (w : Within Q s a) (h : step mem s a = some s') :
    Path mem Q s s' := .tail (.refl s) w h

theorem run_append {mem : List Nat} : ∀ (as bs : List PAction) (s : PSys),
    run mem s (as ++ bs) = (run mem s as).bind fun s' => run mem s' bs
  | [], _, _ => rfl
  | a :: as, bs, s => by
    simp only [List.cons_append, run]
    cases step mem s a with
    | none => rfl
    | some s' => exact run_append as bs s'

theorem Path.run {mem Q : List Nat} {s s' : PSys} (h : Path mem Q s s') :
    ∃ as, run mem s as = some s' ∧ AllWithin mem Q s as := by
  induction h with
  | refl => exact ⟨[], rfl, fun pre a post s1 e => by cases pre <;> cases e⟩
  | tail _ w hs ih =>
    rename_i s1 s2 a _
    obtain ⟨as, h1, h2⟩ := ih
    refine ⟨as ++ [a], by rw [run_append, h1]; simp only [Option.bind_some, PreVote.run, hs], ?_⟩
    intro pre b post s3 e hr
    rcases List.eq_nil_or_concat post with rfl | ⟨p, x, rfl⟩
    · rw [List.append_inj_left' e rfl |>.symm] at hr
      have := List.append_inj_right' e rfl
      cases this
      rw [h1] at hr; cases hr
      exact w
    · rw [List.concat_eq_append, ← List.cons_append, ← List.append_assoc] at e
      exact h2 pre b p s3 (List.append_inj_left' e rfl) hr

/-- What nodes of Q can do without a new election carries over. -/
theorem Path.lift {mem Q : List Nat} {b b' : Sys} (h : Raft.Path Raft.Plain mem Q b b') :
    ∀ s : PSys, s.base = b → ∃ s', Path mem Q s s' ∧ s'.base = b' ∧ s'.pmsgs = s.pmsgs := by
  induction h with
  | refl => exact fun s hs => ⟨s, .refl s, hs, rfl⟩
  | tail _ w hp hst ih =>
    intro s hs
    obtain ⟨s1, p, e, e2⟩ := ih s hs
    subst e
    exact ⟨_, .tail p (a := .raft _) w (step_raft hp hst), rfl, e2⟩

/-! ## Every run is one of Model/Raft -/

theorem demote_run (mem : List Nat) (s : Sys) (v : Nat) (hv : v ∈ mem) :
    ∃ as, Raft.run mem s as = some (demote mem s v) := by
  unfold demote
  split
  · rename_i h
    refine ⟨[.preVote v], ?_⟩
    simp only [Raft.run, Raft.step]
    rw [if_pos ⟨hv, h⟩]; rfl
  · exact ⟨[], rfl⟩

theorem base_step {mem : List Nat} {s s' : PSys} {a : PAction} (h : step mem s a = some s') :
    ∃ as, Raft.run mem s.base as = some s'.base := by
  cases a with
  | raft a =>
    obtain ⟨_, b, hb, rfl⟩ := step_raft_inv h
    exact ⟨[a], by simp only [Raft.run, hb]; rfl⟩
  | timer v l1 l2 nf =>
    simp only [step] at h
    split at h
    · rename_i hc
      cases h
      exact demote_run mem s.base v hc.1
    · cases h
  | elect v noop =>
    simp only [step] at h
    split at h
    · rw [Option.map_eq_some_iff] at h
      obtain ⟨b, hb, rfl⟩ := h
      exact ⟨[.timeout v noop], by simp only [Raft.run, hb]; rfl⟩
    · cases h
  | deliver v k st al nf =>
    refine ⟨[], ?_⟩
    simp only [step] at h
    split at h
    · split at h
      · split at h
        · cases h; rfl
        · cases h
      · split at h
        · cases h; rfl
        · cases h
      · cases h
    · cases h

theorem base_run {mem : List Nat} : ∀ (as : List PAction) {s s' : PSys}, run mem s as = some s' →
    ∃ bs, Raft.run mem s.base bs = some s'.base
  | [], _, _, h => by cases h; exact ⟨[], rfl⟩
  | a :: as, s, s', h => by
    simp only [run, Option.bind_eq_some_iff] at h
    obtain ⟨s1, h1, h2⟩ := h
    obtain ⟨b1, e1⟩ := base_step h1
    obtain ⟨b2, e2⟩ := base_run as h2
    exact ⟨b1 ++ b2, by rw [Raft.run_append, e1]; exact e2⟩

/-! ## The schedule -/

section
variable {mem Q : List Nat}

theorem Path.deliver_req {s : PSys} {q : Nat} {m : ReqVote} (hm : PMsg.req m ∈ s.pmsgs) (hq : q ∈ mem) (hqQ : q ∈ Q)
    (hs : m.src.1 ∈ Q) (hne : m.src.1 ≠ q) :
    Path mem Q s { s with pmsgs := s.pmsgs ++ [.ans (Raft.handleRequestPreVote q (s.base.nodes q) m false).2] } := by
  obtain ⟨k, hk, he⟩ := List.getElem_of_mem hm
  have hk2 : s.pmsgs[k]? = some (.req m) := by rw [List.getElem?_eq_getElem hk, he]
  refine .one (a := .deliver q k false true false) ⟨hqQ, _, hk2, hs⟩ ?_
  simp only [step, hk2]
  rw [if_pos hq, if_pos hne]

theorem Path.deliver_ans {s : PSys} {v : Nat} {m : Vote} (hm : PMsg.ans m ∈ s.pmsgs) (hv : v ∈ mem) (hvQ : v ∈ Q)
    (hs : m.src.1 ∈ Q) (hto : m.cand.1 = v) :
    Path mem Q s { s with pv := upd s.pv v (tallyPreVote mem v (s.base.nodes v) (s.pv v) m true false) } := by
  obtain ⟨k, hk, he⟩ := List.getElem_of_mem hm
  have hk2 : s.pmsgs[k]? = some (.ans m) := by rw [List.getElem?_eq_getElem hk, he]
  refine .one (a := .deliver v k false true false) ⟨hvQ, _, hk2, hs⟩ ?_
  simp only [step, hk2]
  rw [if_pos hv, if_pos hto]

/-- Those who would vote for the node, and say so. -/
structure PreVoter (n : Node) (q : Node) : Prop where
  term : q.term ≤ n.term
  role : q.role ≠ .leader
  mc : q.mcTerm ≤ n.mcTerm
  log : AsUpToDate n.log q.log

theorem pre_round {s : PSys} {v q : Nat} (n : Node) (ys : List Nat) (hn : s.base.nodes v = n) (hv : v ∈ mem) (hvQ : v ∈ Q)
    (hq : q ∈ mem) (hqQ : q ∈ Q) (hne : q ≠ v) (hf : n.role = .follower)
    (hreq : PMsg.req ⟨(v, n.inc), n.term + 1, n.log.length, lastTerm n.log, n.mcTerm⟩ ∈ s.pmsgs)
    (hpv : s.pv v = ⟨n.term + 1, ys, [], 0⟩) (hy : q ∉ ys) (hw : PreVoter n (s.base.nodes q)) :
    ∃ s', Path mem Q s s' ∧ s'.base = s.base ∧
      s'.pv v = decidePre mem false ⟨n.term + 1, ys ++ [q], [], 0⟩ ∧ s.pmsgs ⊆ s'.pmsgs := by
  have hg : Raft.handleRequestPreVote q (s.base.nodes q) ⟨(v, n.inc), n.term + 1, n.log.length, lastTerm n.log, n.mcTerm⟩ false =
      (s.base.nodes q, ⟨(q, (s.base.nodes q).inc), (s.base.nodes q).term, (v, n.inc), n.term + 1, true, (s.base.nodes q).mcTerm⟩) := by
    have := hw.term
    have := hw.mc
    unfold Raft.handleRequestPreVote
    dsimp only
    rw [if_neg (by simp [hw.role]), if_neg (by omega)]
    unfold Raft.logUpToDateAsOurs
    dsimp only
    rw [if_neg (by omega), if_neg (by omega)]
    split
    · rfl
    · rcases hw.log with h | ⟨h1, h2⟩
      · rw [if_pos h]
      · rw [if_neg (by omega), if_neg (by omega)]
        simp [h2]
  have p1 := Path.deliver_req (mem := mem) (Q := Q) hreq hq hqQ hvQ (fun e => hne e.symm)
  rw [hg] at p1
  have p2 := Path.deliver_ans (mem := mem) (Q := Q) (s := { s with pmsgs := s.pmsgs ++ [.ans ⟨(q, (s.base.nodes q).inc), (s.base.nodes q).term, (v, n.inc), n.term + 1, true, (s.base.nodes q).mcTerm⟩] })
    (v := v) (m := ⟨(q, (s.base.nodes q).inc), (s.base.nodes q).term, (v, n.inc), n.term + 1, true, (s.base.nodes q).mcTerm⟩)
    (List.mem_append_right _ (List.mem_singleton.2 rfl)) hv hvQ hqQ rfl
  refine ⟨_, p1.trans p2, rfl, ?_, fun x hx => List.mem_append_left _ hx⟩
  simp only [upd, if_true]
  have := hw.mc
  rw [hn, hpv]
  unfold tallyPreVote
  dsimp only
  rw [if_neg (by simp), if_neg (by simp [hf]), if_neg (by simp), if_neg (by omega), if_neg (by simpa using hq)]
  unfold countPre
  dsimp only
  rw [if_pos ⟨rfl, hy, by simp, .inl rfl⟩]
  rfl

theorem pre_rounds (n : Node) (v : Nat) (hv : v ∈ mem) (hvQ : v ∈ Q) (hf : n.role = .follower) :
    ∀ (D : List Nat) (s : PSys) (ys : List Nat), D ≠ [] → D.Nodup → (∀ q ∈ D, q ∈ mem ∧ q ∈ Q ∧ q ≠ v ∧ q ∉ ys) →
      (∀ q ∈ D, PreVoter n (s.base.nodes q)) → s.base.nodes v = n →
      PMsg.req ⟨(v, n.inc), n.term + 1, n.log.length, lastTerm n.log, n.mcTerm⟩ ∈ s.pmsgs →
      s.pv v = ⟨n.term + 1, ys, [], 0⟩ → ys.length + D.length = quorum mem false →
      ∃ s', Path mem Q s s' ∧ s'.base = s.base ∧ s'.pv v = ⟨0, ys ++ D, [], n.term + 1⟩
  | [], _, _, h, _, _, _, _, _, _, _ => absurd rfl h
  | q :: D, s, ys, _, hnd, hD, hV, hn, hr, hpv, hlen => by
    have hq := hD q List.mem_cons_self
    rw [List.length_cons] at hlen
    rw [List.nodup_cons] at hnd
    obtain ⟨s1, p1, a1, a2, a3⟩ := pre_round (mem := mem) (Q := Q) n ys hn hv hvQ hq.1 hq.2.1 hq.2.2.1 hf hr hpv hq.2.2.2
      (hV q List.mem_cons_self)
    unfold decidePre at a2
    dsimp only at a2
    rw [List.length_append, List.length_singleton] at a2
    by_cases hd : D = []
    · subst hd
      rw [if_pos (by simp at hlen; omega)] at a2
      exact ⟨s1, p1, a1, a2⟩
    · have hdl : 0 < D.length := List.length_pos_iff.2 hd
      have hqm : quorum mem false ≤ mem.length := by
        show mem.length / 2 + 1 ≤ mem.length
        have : quorum mem false = mem.length / 2 + 1 := rfl
        have := List.length_pos_of_mem hv
        omega
      rw [if_neg (by omega), if_neg (by simp; omega), if_neg (by simp; omega)] at a2
      obtain ⟨s2, p2, b1, b2⟩ := pre_rounds n v hv hvQ hf D s1 (ys ++ [q]) hd hnd.2
        (fun x hx => by
          have h := hD x (List.mem_cons_of_mem _ hx)
          refine ⟨h.1, h.2.1, h.2.2.1, ?_⟩
          rw [List.mem_append, List.mem_singleton]
          rintro (e | e)
          · exact h.2.2.2 e
          · exact hnd.1 (e ▸ hx))
        (fun x hx => by rw [a1]; exact hV x (List.mem_cons_of_mem _ hx)) (by rw [a1]; exact hn) (a3 hr) a2
        (by rw [List.length_append, List.length_singleton]; omega)
      exact ⟨s2, p1.trans p2, by rw [b1, a1], by rw [b2, List.append_assoc]; rfl⟩

/-- After the timer has fired. -/
def asking (s : PSys) (v : Nat) (n : Node) : PSys where
  base := s.base
  pv := upd s.pv v ⟨n.term + 1, [v], [], 0⟩
  pmsgs := s.pmsgs ++ [.req ⟨(v, n.inc), n.term + 1, n.log.length, lastTerm n.log, n.mcTerm⟩]

/-- After the election has begun. -/
def standing (mem : List Nat) (s s2 : PSys) (v : Nat) (n : Node) : PSys where
  base := s.base.put mem v
    { n with role := .candidate, term := n.term + 1, vote := some (v, n.inc), yes := [v], no := [], peers := [] }
    [.reqVote ⟨(v, n.inc), n.term + 1, n.log.length, lastTerm n.log, n.mcTerm⟩]
  pv := upd s2.pv v {}
  pmsgs := s2.pmsgs

/-- From the election timer to a committed batch. -/
theorem timer_commits {s : PSys} {v : Nat} (n : Node) (hn : s.base.nodes v = n) (hv : v ∈ mem) (hvQ : v ∈ Q)
    (hf : n.role = .follower) (hmc : n.mcTerm ≤ n.term) (hac : n.commit ≤ n.applied)
    (D : List Nat) (hnd : D.Nodup) (hD : ∀ q ∈ D, q ∈ mem ∧ q ∈ Q ∧ q ≠ v)
    (hV : ∀ q ∈ D, PreVoter n (s.base.nodes q))
    (hlen : D.length + 1 = quorum mem false) (h2 : 2 ≤ mem.length) (noop : Nat) (cmds : List Nat) :
    ∃ s', Path mem Q s s' ∧ (s'.base.nodes v).role = .leader ∧ (s'.base.nodes v).term = n.term + 1 ∧
      (s'.base.nodes v).log = n.log ++ (noop :: cmds).map (fun c => ⟨n.term + 1, c⟩) ∧
      (s'.base.nodes v).log.length ≤ (s'.base.nodes v).applied := by
  have hq2 : 2 ≤ quorum mem false := by show 2 ≤ mem.length / 2 + 1; omega
  have hd : D ≠ [] := by intro h; subst h; simp at hlen; omega
  have p1 : Path mem Q s (asking s v n) := by
    refine .one (a := .timer v false false false) hvQ ?_
    simp only [step]
    rw [if_pos ⟨hv, by rw [hn, hf]; simp⟩]
    have hdm : demote mem s.base v = s.base := by unfold demote; rw [if_neg (by rw [hn, hf]; simp)]
    rw [hdm, hn]
    have hb : beginPreVote mem v n (s.pv v) false false false = (⟨n.term + 1, [v], [], 0⟩,
        [.req ⟨(v, n.inc), n.term + 1, n.log.length, lastTerm n.log, n.mcTerm⟩]) := by
      unfold beginPreVote
      dsimp only
      rw [if_neg (by simp), if_neg (by omega)]
    rw [hb]
    rfl
  obtain ⟨s2, p2, b1, b2⟩ := pre_rounds (mem := mem) (Q := Q) n v hv hvQ hf D (asking s v n) [v] hd hnd
    (fun q hq => ⟨(hD q hq).1, (hD q hq).2.1, (hD q hq).2.2, by rw [List.mem_singleton]; exact (hD q hq).2.2⟩) hV hn
    (List.mem_append_right _ (List.mem_singleton.2 rfl)) (by simp [upd, asking]) (by simp; omega)
  change s2.base = s.base at b1
  have hst : Raft.step mem s2.base (.timeout v noop) = some (s.base.put mem v
      { n with role := .candidate, term := n.term + 1, vote := some (v, n.inc), yes := [v], no := [], peers := [] }
      [.reqVote ⟨(v, n.inc), n.term + 1, n.log.length, lastTerm n.log, n.mcTerm⟩]) := by
    rw [b1]
    simp only [Raft.step]
    rw [if_pos ⟨hv, by rw [hn]; exact hf⟩, hn]
    unfold Raft.beginElection
    rw [if_neg (by simpa using hv), if_neg (by omega)]
    simp only [hf, if_true]
    rfl
  have p3 : Path mem Q s2 (standing mem s s2 v n) := by
    refine .one (a := .elect v noop) hvQ ?_
    simp only [step]
    rw [if_pos (by rw [b1, b2, hn]; exact ⟨hf, rfl, by simp, rfl⟩), hst]
    rfl
  obtain ⟨b', q4, r1, r2, r3, r4⟩ := Raft.candidate_commits (mem := mem) (Q := Q) (v := v) (s := (standing mem s s2 v n).base)
    { n with role := .candidate, term := n.term + 1, vote := some (v, n.inc), yes := [v], no := [], peers := [] }
    put_nodes_self hv hvQ rfl rfl rfl rfl (Nat.lt_succ_of_le hmc) hac
    (Raft.mem_put_msgs.2 (.inr (List.mem_singleton.2 rfl))) D hnd hD
    (fun q hq => by
      show Raft.Voter _ ((s.base.put mem v _ _).nodes q)
      rw [put_nodes_ne (hD q hq).2.2]
      have h := hV q hq
      exact ⟨Nat.lt_succ_of_le h.term, h.role, h.mc, h.log⟩) hlen h2 noop cmds
  obtain ⟨s4, p4, e4, _⟩ := Path.lift q4 (standing mem s s2 v n) rfl
  refine ⟨s4, ((p1.trans p2).trans p3).trans p4, ?_, ?_, ?_, ?_⟩ <;> rw [e4]
  · exact r1
  · exact r2
  · exact r3
  · exact r4

/-! ## Any roles at the start -/

/-- The same node but for its role, which is not made leader. -/
structure Same (a b : Node) : Prop where
  term : b.term = a.term
  mc : b.mcTerm = a.mcTerm
  log : b.log = a.log
  commit : b.commit = a.commit
  applied : b.applied = a.applied
  role : a.role ≠ .leader → b.role ≠ .leader

theorem Same.refl (a : Node) : Same a a := ⟨rfl, rfl, rfl, rfl, rfl, fun h => h⟩

theorem Same.trans {a b c : Node} (h : Same a b) (h' : Same b c) : Same a c :=
  ⟨h'.term.trans h.term, h'.mc.trans h.mc, h'.log.trans h.log, h'.commit.trans h.commit, h'.applied.trans h.applied,
    fun x => h'.role (h.role x)⟩

theorem step_down {s : PSys} {v : Nat} (hv : v ∈ mem) (hvQ : v ∈ Q) :
    ∃ s', Path mem Q s s' ∧ (∀ u, Same (s.base.nodes u) (s'.base.nodes u)) ∧ (s'.base.nodes v).role ≠ .leader := by
  by_cases h : (s.base.nodes v).role = .leader
  · have hb : Raft.becomeFollower (s.base.nodes v) (s.base.nodes v).term 0 true =
        Raft.save { s.base.nodes v with role := .follower } := by
      have hc : ¬ ((s.base.nodes v).term < (s.base.nodes v).term ∨ (s.base.nodes v).mcTerm < 0) := by omega
      unfold Raft.becomeFollower
      simp only [if_neg hc]
      rfl
    have hst : Raft.step mem s.base (.stepDown v) =
        some (s.base.put mem v (Raft.save { s.base.nodes v with role := .follower }) []) := by
      simp only [Raft.step]
      rw [if_pos ⟨hv, h⟩, hb]
    refine ⟨_, .one (a := .raft (.stepDown v)) hvQ (step_raft trivial hst), fun u => ?_, ?_⟩
    · by_cases e : u = v
      · subst e
        show Same _ ((s.base.put mem u _ []).nodes u)
        rw [put_nodes_self]
        exact ⟨rfl, rfl, rfl, rfl, rfl, fun _ => by simp [Raft.save]⟩
      · show Same _ ((s.base.put mem v _ []).nodes u)
        rw [put_nodes_ne e]; exact .refl _
    · show ((s.base.put mem v _ []).nodes v).role ≠ _
      rw [put_nodes_self]; simp [Raft.save]
  · exact ⟨s, .refl s, fun u => .refl _, h⟩

theorem settle : ∀ (L : List Nat) (s : PSys), (∀ q ∈ L, q ∈ mem ∧ q ∈ Q) →
    ∃ s', Path mem Q s s' ∧ (∀ u, Same (s.base.nodes u) (s'.base.nodes u)) ∧ ∀ q ∈ L, (s'.base.nodes q).role ≠ .leader
  | [], s, _ => ⟨s, .refl s, fun _ => .refl _, by simp⟩
  | q :: L, s, h => by
    obtain ⟨s1, p1, a1, a2⟩ := step_down (s := s) (h q List.mem_cons_self).1 (h q List.mem_cons_self).2
    obtain ⟨s2, p2, b1, b2⟩ := settle L s1 fun x hx => h x (List.mem_cons_of_mem _ hx)
    refine ⟨s2, p1.trans p2, fun u => (a1 u).trans (b1 u), fun x hx => ?_⟩
    rcases List.mem_cons.1 hx with rfl | hx
    · exact (b1 x).role a2
    · exact b2 x hx

/-- A candidate gives up at its next timer. -/
theorem give_up {s : PSys} {v : Nat} (hv : v ∈ mem) (hvQ : v ∈ Q) (hr : (s.base.nodes v).role ≠ .leader) :
    ∃ s', Path mem Q s s' ∧ (∀ u, Same (s.base.nodes u) (s'.base.nodes u)) ∧ (s'.base.nodes v).role = .follower := by
  refine ⟨_, .one (a := .timer v false false false) hvQ (by simp only [step]; rw [if_pos ⟨hv, hr⟩]), fun u => ?_, ?_⟩
  · show Same _ ((demote mem s.base v).nodes u)
    unfold demote
    split
    · by_cases e : u = v
      · subst e; rw [put_nodes_self]; exact ⟨rfl, rfl, rfl, rfl, rfl, fun _ => by simp⟩
      · rw [put_nodes_ne e]; exact .refl _
    · exact .refl _
  · show ((demote mem s.base v).nodes v).role = _
    unfold demote
    split
    · rw [put_nodes_self]
    · rename_i h
      cases e : (s.base.nodes v).role <;> simp_all

/-- A cluster of one. -/
theorem alone_commits {s : PSys} {v : Nat} (n : Node) (hn : s.base.nodes v = n) (hvQ : v ∈ Q) (hm : mem = [v])
    (hf : n.role = .follower) (hmc : n.mcTerm ≤ n.term) (noop : Nat) (cmds : List Nat) :
    ∃ s', Path mem Q s s' ∧ (s'.base.nodes v).role = .leader ∧
      (s'.base.nodes v).log = n.log ++ (noop :: cmds).map (fun c => ⟨(s'.base.nodes v).term, c⟩) ∧
      (s'.base.nodes v).log.length ≤ (s'.base.nodes v).applied := by
  subst hm
  have hv : v ∈ [v] := List.mem_singleton.2 rfl
  have hdm : demote [v] s.base v = s.base := by unfold demote; rw [if_neg (by rw [hn, hf]; simp)]
  have hb : beginPreVote [v] v n (s.pv v) false false false = (⟨0, [v], [], n.term + 1⟩, []) := by
    unfold beginPreVote tallyPreVote countPre decidePre
    simp [hf, quorum]
  have p1 : Path [v] Q s { s with pv := upd s.pv v ⟨0, [v], [], n.term + 1⟩ } := by
    refine .one (a := .timer v false false false) hvQ ?_
    simp only [step]
    rw [if_pos ⟨hv, by rw [hn, hf]; simp⟩, hdm, hn, hb]
    simp
  obtain ⟨n1, hn1, c1, c2, c3⟩ : ∃ n1, Raft.becomeLeader [v] noop n = some n1 ∧ n1.role = .leader ∧
      n1.log = n.log ++ [⟨n1.term, noop⟩] ∧ n1.log.length ≤ n1.applied := by
    unfold Raft.becomeLeader
    rw [if_neg (by rw [hf]; simp), if_neg (by omega), if_neg (by simp)]
    generalize (if n.mcTerm = n.term then n.term + 1 else n.term) = t
    dsimp only
    rw [if_pos (by rfl)]
    refine ⟨_, rfl, ?_⟩
    unfold Raft.commitWhatWeCan
    split
    · exact ⟨rfl, rfl, Nat.le_refl _⟩
    · rename_i h
      exact ⟨rfl, rfl, Nat.not_lt.1 h⟩
  have hst : Raft.step [v] s.base (.timeout v noop) = some (s.base.put [v] v n1 []) := by
    simp only [Raft.step]
    rw [if_pos ⟨hv, by rw [hn]; exact hf⟩, hn]
    unfold Raft.beginElection
    rw [if_neg (by simp), if_pos (by rfl), hn1]
    rfl
  have p2 := Path.one (mem := [v]) (Q := Q) (s := { s with pv := upd s.pv v ⟨0, [v], [], n.term + 1⟩ }) (a := .elect v noop) hvQ
    (by
      simp only [step]
      rw [if_pos (by simp [upd, hn, hf]), hst]
      rfl)
  have hcl : Raft.step [v] (s.base.put [v] v n1 []) (.client v cmds) =
      some ((s.base.put [v] v n1 []).put [v] v (Raft.replicateBatch [v] n1 cmds) []) := by
    simp only [Raft.step]
    rw [if_pos ⟨hv, by rw [put_nodes_self]; exact c1⟩, put_nodes_self]
  have p3 := Path.one (mem := [v]) (Q := Q) (a := .raft (.client v cmds)) hvQ (step_raft trivial hcl)
    (s := { s with base := s.base.put [v] v n1 [], pv := upd (upd s.pv v ⟨0, [v], [], n.term + 1⟩) v {} })
  refine ⟨_, (p1.trans p2).trans p3, ?_⟩
  dsimp only
  rw [put_nodes_self]
  unfold Raft.replicateBatch Raft.commitWhatWeCan
  rw [if_pos (by rfl)]
  dsimp only
  split
  · refine ⟨c1, ?_, Nat.le_refl _⟩
    show n1.log ++ _ = _
    rw [c2, List.append_assoc]; rfl
  · rename_i h
    refine ⟨c1, ?_, Nat.not_lt.1 h⟩
    show n1.log ++ _ = _
    rw [c2, List.append_assoc]; rfl

theorem pick {v : Nat} (hQ : Majority mem Q) (hv : v ∈ Q) :
    ∃ D : List Nat, D.Nodup ∧ (∀ q ∈ D, q ∈ mem ∧ q ∈ Q ∧ q ≠ v) ∧ D.length + 1 = quorum mem false := by
  obtain ⟨h1, h2, h3⟩ := hQ
  have he : (Q.erase v).length = Q.length - 1 := List.length_erase_of_mem hv
  refine ⟨(Q.erase v).take (mem.length / 2), (h1.erase v).sublist (List.take_sublist _ _), fun q hq => ?_, ?_⟩
  · have := (h1.mem_erase_iff).1 (List.mem_of_mem_take hq)
    exact ⟨h2 this.2, this.2, this.1⟩
  · rw [List.length_take, he]
    show _ = mem.length / 2 + 1
    omega

theorem inv0_run : ∀ (as : List Action) {s s' : Sys}, Raft.Inv0 s → Raft.run mem s as = some s' → Raft.Inv0 s'
  | [], _, _, h, hr => by cases hr; exact h
  | a :: as, s, s', h, hr => by
    simp only [Raft.run, Option.bind_eq_some_iff] at hr
    obtain ⟨s1, h1, h2⟩ := hr
    obtain ⟨v, n', ms, t, rfl⟩ := Raft.step_tr h1
    have g := Raft.inv0_of_tr h t
    exact inv0_run as (Raft.inv0_put h g.1 g.2) h2

theorem best_commits {s : PSys} {as : List PAction} (hr : run mem {} as = some s) (hQ : Majority mem Q) {v : Nat}
    (hb : Best Q s.base v) (cmds : List Nat) : CanCommit mem Q s v cmds := by
  obtain ⟨bs, hbs⟩ := base_run as hr
  change Raft.run mem {} bs = some s.base at hbs
  have hfit := (inv0_run bs Raft.inv0_init hbs).node v
  have hdone := Raft.done_run bs (fun u => ⟨Nat.le_refl _, Nat.le_refl _⟩) hbs v
  have hvm : v ∈ mem := hQ.2.1 hb.mem
  obtain ⟨s1, p1, a1, a2⟩ := settle (mem := mem) (Q := Q) Q s fun q hq => ⟨hQ.2.1 hq, hq⟩
  obtain ⟨s2, p2, b1, b2⟩ := give_up (mem := mem) (Q := Q) hvm hb.mem (a2 v hb.mem)
  have hs : ∀ u, Same (s.base.nodes u) (s2.base.nodes u) := fun u => (a1 u).trans (b1 u)
  have hmc : (s2.base.nodes v).mcTerm ≤ (s2.base.nodes v).term := by rw [(hs v).mc, (hs v).term]; exact hfit.le
  suffices h : ∃ s', Path mem Q s2 s' ∧ (s'.base.nodes v).role = .leader ∧
      (s'.base.nodes v).log = (s2.base.nodes v).log ++ (0 :: cmds).map (fun c => ⟨(s'.base.nodes v).term, c⟩) ∧
      (s'.base.nodes v).log.length ≤ (s'.base.nodes v).applied by
    obtain ⟨s', p, r1, r2, r3⟩ := h
    obtain ⟨as', h1, h2⟩ := ((p1.trans p2).trans p).run
    exact ⟨as', s', h1, h2, r1, 0, by rw [r2, (hs v).log], r3⟩
  by_cases h2 : 2 ≤ mem.length
  · obtain ⟨D, d1, d2, d3⟩ := pick hQ hb.mem
    obtain ⟨s', p, r1, r2, r3, r4⟩ := timer_commits (mem := mem) (Q := Q) _ rfl hvm hb.mem b2 hmc
      (by rw [(hs v).commit, (hs v).applied]; exact hdone.1) D d1 d2
      (fun q hq => by
        have hq := (d2 q hq).2.1
        refine ⟨?_, (b1 q).role (a2 q hq), ?_, ?_⟩
        · rw [(hs q).term, (hs v).term]; exact hb.term q hq
        · rw [(hs q).mc, (hs v).mc]; exact hb.mc q hq
        · rw [(hs q).log, (hs v).log]; exact hb.log q hq) d3 h2 0 cmds
    exact ⟨s', p, r1, by rw [r3, r2], r4⟩
  · have hm : mem = [v] := by
      match mem, hvm, h2 with
      | [x], h, _ => rw [List.mem_singleton.1 h]
      | x :: y :: l, _, h => simp at h
    exact alone_commits _ rfl hb.mem hm b2 hmc 0 cmds

theorem upToDate_total (a b : List Entry) : AsUpToDate a b ∨ AsUpToDate b a := by
  unfold AsUpToDate; omega

theorem upToDate_trans {a b c : List Entry} (h1 : AsUpToDate a b) (h2 : AsUpToDate b c) : AsUpToDate a c := by
  unfold AsUpToDate at *; omega

theorem exists_newest (f : Nat → List Entry) : ∀ Q : List Nat, Q ≠ [] → ∃ v ∈ Q, ∀ q ∈ Q, AsUpToDate (f v) (f q)
  | [], h => absurd rfl h
  | [x], _ => ⟨x, List.mem_singleton.2 rfl, fun q hq => by rw [List.mem_singleton.1 hq]; exact (upToDate_total _ _).elim id id⟩
  | x :: y :: l, _ => by
    obtain ⟨v, hv, h⟩ := exists_newest f (y :: l) (by simp)
    rcases upToDate_total (f x) (f v) with hx | hx
    · refine ⟨x, List.mem_cons_self, fun q hq => ?_⟩
      rcases List.mem_cons.1 hq with rfl | hq
      · exact (upToDate_total _ _).elim id id
      · exact upToDate_trans hx (h q hq)
    · refine ⟨v, List.mem_cons_of_mem _ hv, fun q hq => ?_⟩
      rcases List.mem_cons.1 hq with rfl | hq
      · exact hx
      · exact h q hq

end

end Verif.PreVote

import Verif.Proofs.Lease
/-
Every timed step keeps the invariant of Proofs/Lease.lean.
-/
namespace Verif.Lease
open Verif.Raft

section
variable {mem : List Nat} {s : Sys} {a : Action} {v : Nat} {n' : Node} {ms : List Msg}

theorem tr_inc (h : Tr mem s a v n' ms) : n'.inc = (s.nodes v).inc ∨ ∃ v, a = .crash v := by
  cases h with
  | timeout hv hr hb =>
    left
    rcases beginElection_eq hv hr hb with ⟨_, h2, rfl⟩ | ⟨_, rfl, rfl⟩
    · exact (becomeLeader_eq h2).2.2.1
    · rfl
  | preVote hv hr => exact Or.inl rfl
  | stepDown hv hr => exact Or.inl (up_becomeFollower (Nat.le_refl _)).inc
  | reqVote hv hk hne =>
    rename_i k noop st nf fo m
    exact Or.inl (handleRequestVote_eq v (s.nodes v) m st).2.2.2.2.2.2.2.2.1.inc
  | vote hv hk hto ht =>
    rename_i k noop st nf fo m
    left
    have c := countVote_eq v (s.nodes v) m
    rcases tallyVote_cases ht with rfl | ⟨T, mc, sv, hT, n1, rfl, hn1⟩ | ⟨hr, hterm, hg, rfl | ⟨hb, hq⟩⟩
    · rfl
    · rcases hn1 with ⟨rfl, _⟩ | ⟨rfl, _⟩
      · exact (up_becomeFollower hT).inc
      · rw [(up_becomeFollower (by rw [c.2.1]; exact hT)).inc]; exact c.2.2.2.1
    · exact c.2.2.2.1
    · rw [(becomeLeader_eq hb).2.2.1]; exact c.2.2.2.1
  | ae hv hk hne => exact Or.inl (up_handleAE _ _ _).inc
  | ack hv hk hto =>
    rename_i k noop st nf fo m
    left
    rcases handleAck_cases mem v (s.nodes v) m nf fo with ⟨mc, hlt, h, _⟩ | h | ⟨hr, hterm, x, _, h | h⟩ <;> rw [h]
    · exact (up_becomeFollower (Nat.le_of_lt hlt)).inc
    · rw [(leaderAdvance_eq mem { s.nodes v with peers := setMatch (s.nodes v).peers m.src x } nf).2.2.2.2.2.inc]
  | client hv hr =>
    left
    unfold replicateBatch; dsimp only; split
    · rw [(commitWhatWeCan_eq _).2.2.2.1]
    · rfl
  | send => exact Or.inl rfl
  | join => exact Or.inl rfl
  | leave => exact Or.inl rfl
  | crash => exact Or.inr ⟨_, rfl⟩

/-- Where candidates and leaders come from. -/
theorem tr_role (h : Tr mem s a v n' ms) : n'.role = .follower ∨
    (n'.role = (s.nodes v).role ∧ n'.term = (s.nodes v).term) ∨
    ((s.nodes v).role = .candidate ∧ ∃ v k noop st nf fo m, a = .deliver v k noop st nf fo ∧
      s.msgs[k]? = some (.vote m)) ∨ ∃ v noop, a = .timeout v noop := by
  cases h with
  | timeout hv hr hb => exact Or.inr (Or.inr (Or.inr ⟨_, _, rfl⟩))
  | preVote hv hr => exact Or.inl rfl
  | stepDown hv hr => exact Or.inl (becomeFollower_eq (Nat.le_refl _)).1
  | reqVote hv hk hne =>
    rename_i k noop st nf fo m
    rcases (handleRequestVote_eq v (s.nodes v) m st).2.2.2.2.2.2.2.2.2.1 with h | h
    · exact Or.inr (Or.inl ⟨h.1, h.2.1⟩)
    · exact Or.inl h.1
  | vote hv hk hto ht =>
    rename_i k noop st nf fo m
    have c := countVote_eq v (s.nodes v) m
    rcases tallyVote_cases ht with rfl | ⟨T, mc, sv, hT, n1, rfl, hn1⟩ | ⟨hr, hterm, hg, rfl | ⟨hb, hq⟩⟩
    · exact Or.inr (Or.inl ⟨rfl, rfl⟩)
    · rcases hn1 with ⟨rfl, _⟩ | ⟨rfl, _⟩
      · exact Or.inl (becomeFollower_eq hT).1
      · exact Or.inl (becomeFollower_eq (by rw [c.2.1]; exact hT)).1
    · exact Or.inr (Or.inl ⟨c.1, c.2.1⟩)
    · exact Or.inr (Or.inr (Or.inl ⟨hr, _, _, _, _, _, _, _, rfl, hk⟩))
  | ae hv hk hne =>
    rename_i k noop st nf fo m
    by_cases hx : 1 ≤ m.term ∧ (s.nodes v).term ≤ m.term
    · exact Or.inl (handleAE_accept hx.1 hx.2).1
    · exact Or.inr (Or.inl ⟨(handleAE_refuse hx).1, (handleAE_refuse hx).2.1⟩)
  | ack hv hk hto =>
    rename_i k noop st nf fo m
    rcases handleAck_cases mem v (s.nodes v) m nf fo with ⟨mc, hlt, h, _⟩ | h | ⟨hr, hterm, x, _, h | h⟩ <;> rw [h]
    · exact Or.inl (becomeFollower_eq (Nat.le_of_lt hlt)).1
    · exact Or.inr (Or.inl ⟨rfl, rfl⟩)
    · exact Or.inr (Or.inl ⟨rfl, rfl⟩)
    · have e := leaderAdvance_eq mem { s.nodes v with peers := setMatch (s.nodes v).peers m.src x } nf
      exact Or.inr (Or.inl ⟨e.1, e.2.1⟩)
  | client hv hr =>
    right; left
    unfold replicateBatch; dsimp only; split
    · rw [(commitWhatWeCan_eq _).1, (commitWhatWeCan_eq _).2.1]; exact ⟨rfl, rfl⟩
    · exact ⟨rfl, rfl⟩
  | send => exact Or.inr (Or.inl ⟨rfl, rfl⟩)
  | join => exact Or.inr (Or.inl ⟨rfl, rfl⟩)
  | leave => exact Or.inr (Or.inl ⟨rfl, rfl⟩)
  | crash => exact Or.inl rfl

end

section
variable {c : Cfg} {δ : Nat} {ts ts' : TSys} {t : Nat}

theorem Unheard.expired {r : Acc} (h : Unheard c ts r.who t)
    (hl : ∃ x, (ts.loc r.who).lastLegit = some x ∧ c.clk r.who r.time ≤ x) : Expired c r t := by
  obtain ⟨x, hx, hle⟩ := hl
  have := h x hx
  unfold Expired
  omega

theorem tallyVote_follower {mem : List Nat} {me noop : Nat} {n n' : Node} {m : Vote} {nf : Bool}
    (h : tallyVote mem me noop n m nf = some n') (hr : n.role = .follower) (hle : m.term ≤ n.term) :
    n' = n := by
  unfold tallyVote at h
  by_cases h1 : m.term < n.term
  · rw [if_pos h1] at h; cases h; rfl
  · rw [if_neg h1, if_neg (by omega), if_pos (Or.inr hr)] at h; cases h; rfl

theorem sticky_vote {me : Nat} {n : Node} {m : ReqVote} :
    (handleRequestVote me n m true).1.role = n.role ∧ (handleRequestVote me n m true).1.term = n.term := by
  unfold handleRequestVote
  dsimp only
  by_cases h : m.term < n.term
  · rw [if_pos h]; exact ⟨rfl, rfl⟩
  · rw [if_neg h, if_pos (by simp)]; exact ⟨rfl, rfl⟩

theorem crown_of {n n' : Node} {l : Local} (h : n'.role ≠ .leader) : crown n n' l = l := by
  unfold crown; rw [if_neg fun hx => h hx.1]

/-- A follower that accepted leaves its leader only once its minimal election time has passed, or
for a leader elected later. -/
theorem Prot.step {r : Acc} {a : Act} (hm : Mono c) (I : Inv1 c.mem ts.sys) (hp : Prot c ts r)
    (hr : r.time ≤ t) (h : TTr c ts t a ts') (hs : SlowRestart c ts t a) (hl : NoLateAnswer c ts t a) :
    Prot c ts' r ∨ Expired c r t ∨ ∃ T, r.term < T ∧ Elected ts.sys.hist T := by
  cases h with
  | send hv hlead htr =>
    rename_i v beg cnt ps lag
    have hne : r.who ≠ v := fun he => by rw [← he, hp.role] at hlead; cases hlead
    left
    refine ⟨?_, ?_, ?_, ?_, ?_, ?_⟩
    · show ((ts.sys.put _ _ _ _).nodes _).role = _
      rw [put_nodes_ne hne]; exact hp.role
    · show ((ts.sys.put _ _ _ _).nodes _).term = _
      rw [put_nodes_ne hne]; exact hp.term
    · show (upd _ _ _ _ : Local).hasLeader = _
      rw [upd_ne _ _ hne]; exact hp.leader
    · show ∃ x, (upd _ _ _ _ : Local).lastLegit = _ ∧ _
      rw [upd_ne _ _ hne]; exact hp.legit
    · show _ ≤ (upd _ _ _ _ : Local).elec
      rw [upd_ne _ _ hne]; exact hp.elec
    · show ∀ d T, (upd _ _ _ _ : Local).phase2 = _ → _
      rw [upd_ne _ _ hne]; exact hp.phase2
  | preVoteWon hf =>
    rename_i v
    left
    by_cases he : r.who = v
    · subst he
      refine ⟨hp.role, hp.term, ?_, ?_, ?_, ?_⟩
      · show (upd _ _ _ _ : Local).hasLeader = _
        rw [upd_self]; exact hp.leader
      · show ∃ x, (upd _ _ _ _ : Local).lastLegit = _ ∧ _
        rw [upd_self]; exact hp.legit
      · show _ ≤ (upd _ _ _ _ : Local).elec
        rw [upd_self]; exact hp.elec
      · show ∀ d T, (upd _ _ _ _ : Local).phase2 = _ → _
        rw [upd_self]
        intro d T hd
        simp only [Option.some.injEq, Prod.mk.injEq] at hd
        have := hm r.who _ _ hr
        omega
    · refine ⟨hp.role, hp.term, ?_, ?_, ?_, ?_⟩
      · show (upd _ _ _ _ : Local).hasLeader = _
        rw [upd_ne _ _ he]; exact hp.leader
      · show ∃ x, (upd _ _ _ _ : Local).lastLegit = _ ∧ _
        rw [upd_ne _ _ he]; exact hp.legit
      · show _ ≤ (upd _ _ _ _ : Local).elec
        rw [upd_ne _ _ he]; exact hp.elec
      · show ∀ d T, (upd _ _ _ _ : Local).phase2 = _ → _
        rw [upd_ne _ _ he]; exact hp.phase2
  | elapse hnl hel =>
    rename_i v
    by_cases he : r.who = v
    · subst he
      right; left
      exact Nat.le_trans hp.elec hel
    · left
      refine ⟨hp.role, hp.term, ?_, ?_, ?_, ?_⟩
      · show (upd _ _ _ _ : Local).hasLeader = _
        rw [upd_ne _ _ he]; exact hp.leader
      · show ∃ x, (upd _ _ _ _ : Local).lastLegit = _ ∧ _
        rw [upd_ne _ _ he]; exact hp.legit
      · show _ ≤ (upd _ _ _ _ : Local).elec
        rw [upd_ne _ _ he]; exact hp.elec
      · show ∀ d T, (upd _ _ _ _ : Local).phase2 = _ → _
        rw [upd_ne _ _ he]; exact hp.phase2
  | shadow =>
    rename_i v p
    left
    by_cases he : r.who = v
    · subst he
      refine ⟨hp.role, hp.term, ?_, ?_, ?_, ?_⟩
      · show (upd _ _ _ _ : Local).hasLeader = _
        rw [upd_self]; exact hp.leader
      · show ∃ x, (upd _ _ _ _ : Local).lastLegit = _ ∧ _
        rw [upd_self]; exact hp.legit
      · show _ ≤ (upd _ _ _ _ : Local).elec
        rw [upd_self]; exact hp.elec
      · show ∀ d T, (upd _ _ _ _ : Local).phase2 = _ → _
        rw [upd_self]; exact hp.phase2
    · refine ⟨hp.role, hp.term, ?_, ?_, ?_, ?_⟩
      · show (upd _ _ _ _ : Local).hasLeader = _
        rw [upd_ne _ _ he]; exact hp.leader
      · show ∃ x, (upd _ _ _ _ : Local).lastLegit = _ ∧ _
        rw [upd_ne _ _ he]; exact hp.legit
      · show _ ≤ (upd _ _ _ _ : Local).elec
        rw [upd_ne _ _ he]; exact hp.elec
      · show ∀ d T, (upd _ _ _ _ : Local).phase2 = _ → _
        rw [upd_ne _ _ he]; exact hp.phase2
  | raft hg htr =>
    rename_i a v n' ms
    by_cases he : r.who = v
    swap
    · left
      refine ⟨?_, ?_, ?_, ?_, ?_, ?_⟩
      · show ((ts.sys.put _ _ _ _).nodes _).role = _
        rw [put_nodes_ne he]; exact hp.role
      · show ((ts.sys.put _ _ _ _).nodes _).term = _
        rw [put_nodes_ne he]; exact hp.term
      · show (upd _ _ _ _ : Local).hasLeader = _
        rw [upd_ne _ _ he]; exact hp.leader
      · show ∃ x, (upd _ _ _ _ : Local).lastLegit = _ ∧ _
        rw [upd_ne _ _ he]; exact hp.legit
      · show _ ≤ (upd _ _ _ _ : Local).elec
        rw [upd_ne _ _ he]; exact hp.elec
      · show ∀ d T, (upd _ _ _ _ : Local).phase2 = _ → _
        rw [upd_ne _ _ he]; exact hp.phase2
    subst he
    -- what has to be shown when role and term stay
    have stay : ∀ l' : Local, n'.role = .follower → n'.term = r.term →
        after c ts t n' (ts.loc r.who) a = l' → l'.hasLeader = true →
        (∃ x, l'.lastLegit = some x ∧ c.clk r.who r.time ≤ x) →
        c.clk r.who r.time + c.minElec r.who ≤ l'.elec →
        (∀ d T, l'.phase2 = some (d, T) → c.clk r.who r.time + c.minElec r.who ≤ d) →
        Prot c (rnext c ts t a r.who n' ms) r := by
      intro l' h1 h2 h3 h4 h5 h6 h7
      have hloc : (rnext c ts t a r.who n' ms).loc r.who = l' := by
        show upd _ _ _ _ = _
        rw [upd_self, h3, crown_of (by rw [h1]; simp)]
      have hnode : (rnext c ts t a r.who n' ms).sys.nodes r.who = n' := put_nodes_self
      exact ⟨by rw [hnode]; exact h1, by rw [hnode]; exact h2, by rw [hloc]; exact h4,
        by rw [hloc]; exact h5, by rw [hloc]; exact h6, by rw [hloc]; exact h7⟩
    cases htr with
    | timeout hv hro hb =>
      right; left
      simp only [guard] at hg
      split at hg
      · cases hg
      · rename_i d T hd
        have h1 := hp.phase2 d T hd
        have h2 := (of_decide_eq_true hg).1
        exact Nat.le_trans h1 h2
    | preVote hv hro => rw [hp.role] at hro; cases hro
    | stepDown hv hro => rw [hp.role] at hro; cases hro
    | client hv hro => rw [hp.role] at hro; cases hro
    | send hv hro => rw [hp.role] at hro; cases hro
    | join hv hne =>
      exact Or.inl (stay _ hp.role hp.term rfl hp.leader hp.legit hp.elec hp.phase2)
    | leave hv =>
      exact Or.inl (stay _ hp.role hp.term rfl hp.leader hp.legit hp.elec hp.phase2)
    | crash hv => exact Or.inr (Or.inl (Unheard.expired hs hp.legit))
    | reqVote hv hk hne =>
      rename_i k noop st nf fo m
      have hst : st = sticky c r.who (ts.loc r.who) t := by simpa [guard] using hg
      cases hx : sticky c r.who (ts.loc r.who) t with
      | false =>
        right; left
        obtain ⟨x, hx1, hx2⟩ := hp.legit
        simp only [sticky, hp.leader, hx1, Bool.true_and, decide_eq_false_iff_not] at hx
        unfold Expired
        omega
      | true =>
        rw [hst, hx]
        rw [hst, hx] at stay
        have hv := sticky_vote (me := r.who) (n := ts.sys.nodes r.who) (m := m)
        refine Or.inl (stay (ts.loc r.who) (hv.1.trans hp.role) (hv.2.trans hp.term) ?_ hp.leader hp.legit
          hp.elec hp.phase2)
        simp only [after, hk, afterMsg]
        rw [if_neg (by omega)]
    | vote hv hk hto ht =>
      rename_i k noop st nf fo m
      by_cases hlt : (ts.sys.nodes r.who).term < m.term
      · right; left
        simp only [NoLateAnswer, hk] at hl
        exact Unheard.expired (hl hlt) hp.legit
      · have := tallyVote_follower ht hp.role (by omega)
        subst this
        refine Or.inl (stay (ts.loc r.who) hp.role hp.term ?_ hp.leader hp.legit hp.elec hp.phase2)
        simp only [after, hk, afterMsg]
        rw [if_neg hlt]
    | ae hv hk hne =>
      rename_i k noop st nf fo m
      by_cases hx : 1 ≤ m.term ∧ (ts.sys.nodes r.who).term ≤ m.term
      · by_cases hlt : r.term < m.term
        · obtain ⟨P, hP⟩ := I.aeOK m (List.mem_of_getElem? hk)
          exact Or.inr (Or.inr ⟨m.term, hlt, hP.1⟩)
        · have ha := handleAE_accept (me := r.who) hx.1 hx.2
          have := hp.term
          refine Or.inl (stay _ ha.1 (by rw [ha.2.1]; omega) (by simp only [after, hk, afterMsg, if_pos hx]; rfl) rfl ?_ ?_ ?_)
          · exact ⟨_, rfl, hm _ _ _ hr⟩
          · exact Nat.add_le_add_right (hm _ _ _ hr) _
          · intro d T h; cases h
      · have ha := handleAE_refuse (me := r.who) hx
        refine Or.inl (stay (ts.loc r.who) (ha.1.trans hp.role) (ha.2.1.trans hp.term) ?_ hp.leader hp.legit
          hp.elec hp.phase2)
        simp only [after, hk, afterMsg]
        rw [if_neg hx]
    | ack hv hk hto =>
      rename_i k noop st nf fo m
      by_cases hlt : (ts.sys.nodes r.who).term < m.term
      · right; left
        simp only [NoLateAnswer, hk] at hl
        exact Unheard.expired (hl hlt) hp.legit
      · have hn : handleAck c.mem r.who (ts.sys.nodes r.who) m nf fo = ts.sys.nodes r.who := by
          rcases handleAck_cases c.mem r.who (ts.sys.nodes r.who) m nf fo with ⟨mc, hl, h, _⟩ | h | ⟨hr, _⟩
          · exact absurd hl hlt
          · exact h
          · rw [hp.role] at hr; cases hr
        refine Or.inl (stay (ts.loc r.who) (by rw [hn]; exact hp.role) (by rw [hn]; exact hp.term) ?_ hp.leader hp.legit hp.elec hp.phase2)
        simp only [after, hk, afterMsg]
        rw [if_neg hlt, if_neg]
        intro h
        rw [hp.role] at h
        exact absurd h.2.1 (by simp)

end

end Verif.Lease

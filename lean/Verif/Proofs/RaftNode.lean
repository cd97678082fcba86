import Verif.Model.Raft
/-
One node against arbitrary messages: a vote once granted stays the vote of its term.
-/
namespace Verif.Raft

/-- The node has voted for `c` in term `T`, in memory and on disk. -/
def Holds (T : Nat) (c : PeerID) (n : Node) : Prop :=
  T ≤ n.saved.term ∧ n.saved.term ≤ n.term ∧ (n.saved.term = T → n.saved.vote = some c) ∧
    (n.term = T → n.vote = some c)

section
variable {T : Nat} {c : PeerID} {n : Node}

theorem Holds.save (h : Holds T c n) : Holds T c (save n) := by
  obtain ⟨h1, h2, h3, h4⟩ := h
  exact ⟨by simp [Raft.save]; omega, by simp [Raft.save], h4, h4⟩

theorem Holds.of_eq {n' : Node} (h : Holds T c n) (h1 : n'.term = n.term) (h2 : n'.vote = n.vote)
    (h3 : n'.saved = n.saved) : Holds T c n' := by
  unfold Holds; rw [h1, h2, h3]; exact h

theorem Holds.raise {n' : Node} (h : Holds T c n) (h1 : n.term < n'.term) (h3 : n'.saved = n.saved) :
    Holds T c n' := by
  obtain ⟨h4, h5, h6, h7⟩ := h
  refine ⟨by rw [h3]; exact h4, by rw [h3]; omega, by rw [h3]; exact h6, by omega⟩

theorem Holds.follower {t mc : Nat} {sv : Bool} (h : Holds T c n)
    (ht : n.term < t ∨ t = n.term ∧ mc ≤ n.mcTerm) : Holds T c (becomeFollower n t mc sv) := by
  have key : ∀ n', Holds T c n' → Holds T c (if sv then Raft.save n' else n') := by
    intro n' h; split
    · exact h.save
    · exact h
  unfold becomeFollower
  refine key _ ?_
  split
  · rcases ht with ht | ht
    · exact h.raise ht rfl
    · omega
  · exact h.of_eq rfl rfl rfl

theorem Holds.commit (h : Holds T c n) : Holds T c (commitWhatWeCan n) := by
  unfold commitWhatWeCan
  split
  · exact (h.of_eq (n' := { n with applied := n.commit }) rfl rfl rfl).save
  · exact h

theorem Holds.lead {mem : List Nat} {noop : Nat} {n' : Node} (h : Holds T c n)
    (hb : becomeLeader mem noop n = some n') : Holds T c n' := by
  unfold becomeLeader at hb
  by_cases h1 : n.role = .leader
  · rw [if_pos h1] at hb; cases hb
  rw [if_neg h1] at hb
  by_cases h2 : n.term < n.mcTerm
  · rw [if_pos h2] at hb; cases hb
  rw [if_neg h2] at hb
  by_cases h3 : n.mcTerm = n.term ∧ mem.length ≠ 1
  · rw [if_pos h3] at hb; cases hb
  rw [if_neg h3] at hb
  dsimp only at hb
  have key : ∀ {x : Node}, x.term = (if n.mcTerm = n.term then n.term + 1 else n.term) →
      x.vote = n.vote → x.saved = n.saved → Holds T c x := by
    intro x h1 h2 h3
    split at h1
    · exact h.raise (by omega) h3
    · exact h.of_eq h1 h2 h3
  by_cases h4 : mem.length = 1
  · rw [if_pos h4] at hb
    cases hb
    refine Holds.save (Holds.commit (key ?_ ?_ ?_)) <;> rfl
  · rw [if_neg h4] at hb
    cases hb
    refine Holds.save (key ?_ ?_ ?_) <;> rfl

theorem Holds.election {mem : List Nat} {me noop : Nat} {r : Node × List Msg} (h : Holds T c n)
    (hr : n.role = .follower) (hb : beginElection mem me noop n = some r) :
    Holds T c r.1 ∧ ∀ m, Msg.vote m ∉ r.2 := by
  unfold beginElection at hb
  split at hb
  · cases hb; exact ⟨h, by simp⟩
  split at hb
  · rw [Option.map_eq_some_iff] at hb
    obtain ⟨a, h1, rfl⟩ := hb
    exact ⟨h.lead h1, by simp⟩
  · cases hb
    exact ⟨h.raise (by simp) rfl, by simp⟩

theorem Holds.decide {m : ReqVote} (h : Holds T c n) (hv : n.term = T → m.src = c) :
    Holds T c (decideVote n m).1 := by
  obtain ⟨h1, h2, h3, h4⟩ := h
  unfold decideVote
  split
  · refine Holds.save ⟨h1, h2, h3, ?_⟩
    intro e; rw [hv e]
  · exact Holds.save ⟨h1, h2, h3, h4⟩

theorem Holds.requestVote {me : Nat} {m : ReqVote} {st : Bool} (h : Holds T c n) :
    Holds T c (handleRequestVote me n m st).1 := by
  unfold handleRequestVote
  dsimp only
  split
  · exact h
  split
  · exact h.save
  split
  · rename_i hlt
    refine (h.follower (Or.inl hlt)).decide ?_
    intro e
    obtain ⟨h1, h2, _, _⟩ := h
    have : (becomeFollower n m.term m.mcTerm false).term = m.term := by
      unfold becomeFollower; simp [hlt]
    omega
  split
  · exact h
  · rename_i hx
    refine h.decide ?_
    intro e
    have := h.2.2.2 e
    rw [this] at hx
    have hy := Classical.not_and_iff_not_or_not.1 hx
    rcases hy with hy | hy
    · exact (hy (by simp)).elim
    · have := Classical.not_not.1 hy; cases this; rfl

/-- What a granted vote says about the node that sends it. -/
theorem requestVote_granted {me : Nat} {m : ReqVote} {st : Bool}
    (h : (handleRequestVote me n m st).2.granted = true) :
    (handleRequestVote me n m st).2.cand = m.src ∧ (handleRequestVote me n m st).2.term = m.term ∧
    Holds (handleRequestVote me n m st).2.term m.src (handleRequestVote me n m st).1 ∧
    (n.term = m.term → n.vote = none ∨ n.vote = some m.src) ∧ n.term ≤ m.term ∧
    ∀ e, n.log.getLast? = some e →
      e.term < m.lastTerm ∨ e.term = m.lastTerm ∧ n.log.length ≤ m.lastIdx := by
  have hlast : ∀ n0 : Node, n0.log = n.log → logUpToDateAsOurs n0 m = true →
      ∀ e, n.log.getLast? = some e →
      e.term < m.lastTerm ∨ e.term = m.lastTerm ∧ n.log.length ≤ m.lastIdx := by
    intro n0 h0 hl e he
    have hlen : n.log ≠ [] := by intro hx; rw [hx] at he; cases he
    have hlt : lastTerm n.log = e.term := by
      have hpos := List.length_pos_iff.2 hlen
      unfold lastTerm termAt
      rw [if_neg (by omega)]
      rw [List.getLast?_eq_getElem?] at he
      simp [terms, he]
    unfold logUpToDateAsOurs at hl
    rw [h0, hlt] at hl
    have hpos := List.length_pos_iff.2 hlen
    split at hl; · cases hl
    split at hl; · cases hl
    split at hl; · omega
    split at hl; · left; assumption
    split at hl; · cases hl
    right
    exact ⟨by omega, of_decide_eq_true hl⟩
  have hdec : ∀ n0 : Node, n0.term = m.term → (decideVote n0 m).2 = true →
      (decideVote n0 m).1.term = m.term ∧ Holds m.term m.src (decideVote n0 m).1 ∧
      logUpToDateAsOurs n0 m = true := by
    intro n0 h0 hd
    unfold decideVote at hd ⊢
    split at hd
    · rename_i hl
      rw [if_pos hl]
      refine ⟨h0, ⟨?_, ?_, ?_, ?_⟩, hl⟩ <;> simp [save, h0]
    · cases hd
  unfold handleRequestVote at h ⊢
  dsimp only at h ⊢
  split at h; · cases h
  split at h; · cases h
  rename_i h1 h2
  rw [if_neg h1, if_neg h2]
  split at h
  · rename_i h3
    rw [if_pos h3]
    have e : (becomeFollower n m.term m.mcTerm false).term = m.term ∧
        (becomeFollower n m.term m.mcTerm false).log = n.log := by
      unfold becomeFollower; simp [h3]
    obtain ⟨d1, d2, d3⟩ := hdec _ e.1 h
    exact ⟨rfl, d1, by rw [d1]; exact d2, by omega, by omega, hlast _ e.2 d3⟩
  · rename_i h3
    rw [if_neg h3]
    split at h; · cases h
    rename_i h4
    rw [if_neg h4]
    obtain ⟨d1, d2, d3⟩ := hdec n (by omega) h
    refine ⟨rfl, d1, by rw [d1]; exact d2, ?_, by omega, hlast _ rfl d3⟩
    intro _
    rcases Classical.not_and_iff_not_or_not.1 h4 with hy | hy
    · exact Or.inl (Classical.not_not.1 hy)
    · exact Or.inr (Classical.not_not.1 hy)

theorem Holds.count {me : Nat} {m : Vote} (h : Holds T c n) : Holds T c (countVote me n m) := by
  unfold countVote
  repeat' split
  all_goals exact h.of_eq rfl rfl rfl

theorem Holds.tally {mem : List Nat} {me noop : Nat} {m : Vote} {nf : Bool} {n' : Node}
    (h : Holds T c n) (ht : tallyVote mem me noop n m nf = some n') : Holds T c n' := by
  unfold tallyVote at ht
  split at ht; · cases ht; exact h
  split at ht; · cases ht; exact h.follower (Or.inl (by assumption))
  split at ht; · cases ht; exact h
  split at ht; · cases ht; exact h
  split at ht; · cases ht; exact h
  split at ht; · cases ht; exact h
  dsimp only at ht
  split at ht; · exact h.count.lead ht
  split at ht
  · cases ht; exact h.count.follower (Or.inr ⟨rfl, Nat.zero_le _⟩)
  · cases ht; exact h.count

theorem Holds.follow {m : AE} (h : Holds T c n) : Holds T c (follow n m) := by
  unfold Raft.follow
  dsimp only
  have key : Holds T c (if n.mcTerm < m.mcTerm then Raft.save { n with mcTerm := m.mcTerm } else n) := by
    split
    · exact (h.of_eq (n' := { n with mcTerm := m.mcTerm }) rfl rfl rfl).save
    · exact h
  generalize (if n.mcTerm < m.mcTerm then Raft.save { n with mcTerm := m.mcTerm } else n) = x at key ⊢
  split
  · rename_i hlt
    exact key.follower (Or.inl hlt)
  · exact key.of_eq rfl rfl rfl

theorem Holds.ae {me : Nat} {m : AE} (h : Holds T c n) :
    Holds T c (handleAppendEntries me n m).1 := by
  unfold handleAppendEntries
  split; · exact h
  dsimp only
  have h0 : Holds T c { n with commit := max n.commit (min m.commit (commonPrefix m.terms (terms n.log))) } :=
    h.of_eq rfl rfl rfl
  split; · exact h0.commit
  have h1 := Holds.follow (m := m) h0
  split; · exact h1.commit
  split; · exact h1.commit
  split; · exact h1.commit
  split; · exact h1.commit
  split
  · exact h1.commit
  · exact Holds.commit (h1.of_eq rfl rfl rfl)

theorem Holds.advance {mem : List Nat} {nf : Bool} (h : Holds T c n) :
    Holds T c (leaderAdvanceCommitIndex mem n nf) := by
  unfold leaderAdvanceCommitIndex
  split
  · exact h
  · split
    · exact h
    · exact Holds.commit (h.of_eq rfl rfl rfl)

theorem Holds.ack {mem : List Nat} {me : Nat} {m : Ack} {nf fo : Bool} (h : Holds T c n) :
    Holds T c (handleAck mem me n m nf fo) := by
  unfold handleAck
  split; · exact h.follower (Or.inl (by assumption))
  split; · exact h
  split; · exact h
  split; · exact h
  dsimp only
  split
  · split
    · exact h.of_eq rfl rfl rfl
    split
    · exact Holds.advance (h.of_eq rfl rfl rfl)
    · exact h.of_eq rfl rfl rfl
  split
  · exact Holds.advance (h.of_eq rfl rfl rfl)
  split
  · exact Holds.advance (h.of_eq rfl rfl rfl)
  · exact h.of_eq rfl rfl rfl

/-- A vote, once held, is held after any event. -/
theorem Holds.step {mem : List Nat} {me : Nat} {ev : Event} {r : Node × List Msg} (h : Holds T c n)
    (hs : nodeStep mem me n ev = some r) : Holds T c r.1 := by
  cases ev <;> simp only [nodeStep] at hs
  case timeout noop =>
    split at hs
    · exact (h.election (by assumption) hs).1
    · cases hs
  case preVote =>
    split at hs <;> cases hs
    exact h.of_eq rfl rfl rfl
  case stepDown =>
    split at hs <;> cases hs
    exact h.follower (Or.inr ⟨rfl, Nat.zero_le _⟩)
  case recv m noop st nf fo =>
    cases m <;> simp only [receive] at hs
    · cases hs; exact h.requestVote (me := me)
    · rw [Option.map_eq_some_iff] at hs
      obtain ⟨a, h1, rfl⟩ := hs
      exact h.tally h1
    · cases hs; exact h.ae (me := me)
    · cases hs; exact h.ack
  case client cmds =>
    split at hs <;> cases hs
    unfold replicateBatch
    dsimp only
    split
    · exact Holds.commit (h.of_eq rfl rfl rfl)
    · exact h.of_eq rfl rfl rfl
  case send beg cnt =>
    split at hs <;> cases hs
    exact h
  case join p =>
    split at hs <;> cases hs
    exact h.of_eq rfl rfl rfl
  case leave p => cases hs; exact h.of_eq rfl rfl rfl
  case crash =>
    cases hs
    obtain ⟨h1, h2, h3, h4⟩ := h
    exact ⟨h1, Nat.le_refl _, h3, h3⟩

end

/-- Only the answer to a vote request is a vote. -/
theorem vote_sent {mem : List Nat} {me : Nat} {n : Node} {ev : Event} {r : Node × List Msg} {m : Vote}
    (hs : nodeStep mem me n ev = some r) (hm : Msg.vote m ∈ r.2) :
    ∃ q noop st nf fo, ev = .recv (.reqVote q) noop st nf fo ∧ m = (handleRequestVote me n q st).2 ∧
      r.1 = (handleRequestVote me n q st).1 := by
  cases ev <;> simp only [nodeStep] at hs
  case timeout noop =>
    split at hs
    · exfalso
      unfold beginElection at hs
      split at hs
      · cases hs; simp at hm
      split at hs
      · rw [Option.map_eq_some_iff] at hs
        obtain ⟨a, h1, rfl⟩ := hs
        simp at hm
      · cases hs; simp at hm
    · cases hs
  case preVote => split at hs <;> cases hs; simp at hm
  case stepDown => split at hs <;> cases hs; simp at hm
  case recv q noop st nf fo =>
    cases q <;> simp only [receive] at hs
    · cases hs
      simp only [List.mem_singleton, Msg.vote.injEq] at hm
      exact ⟨_, _, _, _, _, rfl, hm, rfl⟩
    · rw [Option.map_eq_some_iff] at hs
      obtain ⟨a, h1, rfl⟩ := hs
      simp at hm
    · cases hs; simp at hm
    · cases hs; simp at hm
  case client cmds => split at hs <;> cases hs; simp at hm
  case send beg cnt => split at hs <;> cases hs; simp at hm
  case join p => split at hs <;> cases hs; simp at hm
  case leave p => cases hs; simp at hm
  case crash => cases hs; simp at hm

/-- Votes of one history: all held, and one candidate per term. -/
def VoteInv (n : Node) (sent : List Msg) : Prop :=
  (∀ m, Msg.vote m ∈ sent → m.granted = true → Holds m.term m.cand n) ∧
  ∀ m m', Msg.vote m ∈ sent → Msg.vote m' ∈ sent → m.granted = true → m'.granted = true →
    m.term = m'.term → m.cand = m'.cand

theorem VoteInv.step {mem : List Nat} {me : Nat} {n : Node} {sent : List Msg} {ev : Event}
    {r : Node × List Msg} (h : VoteInv n sent) (hs : nodeStep mem me n ev = some r) :
    VoteInv r.1 (sent ++ r.2) := by
  have new : ∀ m, Msg.vote m ∈ r.2 → m.granted = true →
      Holds m.term m.cand r.1 ∧ (∀ m', Msg.vote m' ∈ r.2 → m' = m) ∧
      (n.term = m.term → n.vote = none ∨ n.vote = some m.cand) ∧ n.term ≤ m.term := by
    intro m hm hg
    obtain ⟨q, noop, st, nf, fo, rfl, h1, h2⟩ := vote_sent hs hm
    rw [h1] at hg
    obtain ⟨g1, g2, g3, g4, g5, _⟩ := requestVote_granted hg
    refine ⟨?_, ?_, ?_, ?_⟩
    · rw [h2, h1, g1]; exact g3
    · intro m' hm'
      obtain ⟨q', noop', st', nf', fo', e1, e2, _⟩ := vote_sent hs hm'
      cases e1
      rw [e2, h1]
    · rw [h1, g1, g2]; exact g4
    · rw [h1, g2]; exact g5
  refine ⟨?_, ?_⟩
  · intro m hm hg
    rcases List.mem_append.1 hm with hm | hm
    · exact (h.1 m hm hg).step hs
    · exact (new m hm hg).1
  · have cross : ∀ m m', Msg.vote m ∈ sent → Msg.vote m' ∈ r.2 → m.granted = true →
        m'.granted = true → m.term = m'.term → m.cand = m'.cand := by
      intro m m' hm hm' hg hg' ht
      obtain ⟨h1, h2, h3, h4⟩ := h.1 m hm hg
      obtain ⟨_, _, n3, n4⟩ := new m' hm' hg'
      have : n.term = m.term := by omega
      have hv := h4 this
      rcases n3 (by omega) with hx | hx
      · rw [hx] at hv; cases hv
      · rw [hx] at hv; exact (Option.some.inj hv).symm
    intro m m' hm hm' hg hg' ht
    rcases List.mem_append.1 hm with hm | hm <;> rcases List.mem_append.1 hm' with hm' | hm'
    · exact h.2 m m' hm hm' hg hg' ht
    · exact cross m m' hm hm' hg hg' ht
    · exact (cross m' m hm' hm hg' hg ht.symm).symm
    · rw [(new m hm hg).2.1 m' hm']

theorem VoteInv.run {mem : List Nat} {me : Nat} : ∀ (es : List Event) {n : Node} {sent : List Msg}
    {r : Node × List Msg}, VoteInv n sent → nodeRun mem me n sent es = some r → VoteInv r.1 r.2
  | [], n, sent, r, h, hr => by cases hr; exact h
  | e :: es, n, sent, r, h, hr => by
    simp only [nodeRun, Option.bind_eq_some_iff] at hr
    obtain ⟨a, h1, h2⟩ := hr
    exact VoteInv.run es (h.step h1) h2

/-- A step of the system is a step of one of its nodes. -/
theorem step_node {mem : List Nat} {s s' : Sys} {a : Action} (h : step mem s a = some s') :
    ∃ v ev n' ms, a.event s = some (v, ev) ∧ v ∈ mem ∧ nodeStep mem v (s.nodes v) ev = some (n', ms) ∧
      s' = s.put mem v n' ms := by
  cases a <;> simp only [Raft.step] at h
  case timeout v noop =>
    split at h
    · rename_i hc
      rw [Option.map_eq_some_iff] at h
      obtain ⟨r, h1, rfl⟩ := h
      exact ⟨v, _, r.1, r.2, rfl, hc.1, by simp [nodeStep, hc.2, h1], rfl⟩
    · cases h
  case preVote v =>
    split at h <;> cases h
    rename_i hc
    exact ⟨v, _, _, _, rfl, hc.1, by simp [nodeStep, hc.2], rfl⟩
  case stepDown v =>
    split at h <;> cases h
    rename_i hc
    exact ⟨v, _, _, _, rfl, hc.1, by simp [nodeStep, hc.2], rfl⟩
  case deliver v k noop st nf fo =>
    split at h
    · cases h
    · rename_i m hk
      split at h
      · rename_i hc
        rw [Option.map_eq_some_iff] at h
        obtain ⟨r, h1, rfl⟩ := h
        exact ⟨v, .recv m noop st nf fo, r.1, r.2, by simp [Action.event, hk, hc.2], hc.1,
          by simp [nodeStep, h1], rfl⟩
      · cases h
  case client v cmds =>
    split at h <;> cases h
    rename_i hc
    exact ⟨v, _, _, _, rfl, hc.1, by simp [nodeStep, hc.2], rfl⟩
  case send v beg cnt =>
    split at h <;> cases h
    rename_i hc
    exact ⟨v, _, _, _, rfl, hc.1, by simp only [nodeStep]; rw [if_pos hc.2], rfl⟩
  case join v p =>
    split at h <;> cases h
    rename_i hc
    exact ⟨v, _, _, _, rfl, hc.1, by simp only [nodeStep]; rw [if_pos hc.2], rfl⟩
  case leave v p =>
    split at h <;> cases h
    rename_i hc
    exact ⟨v, _, _, _, rfl, hc, rfl, rfl⟩
  case crash v =>
    split at h <;> cases h
    rename_i hc
    exact ⟨v, _, _, _, rfl, hc, rfl, rfl⟩

end Verif.Raft

import Verif.Proofs.RaftStep
/-
A node that has taken the configuration of its current term has saved that term.
-/
namespace Verif.Raft

/-- How the version of the configuration, the term and their saved copies fit together. -/
structure Fit (n : Node) : Prop where
  le : n.mcTerm ≤ n.term
  saved : n.saved.mcTerm ≤ n.saved.term
  term : n.mcTerm < n.term ∨ n.term ≤ n.saved.term
  lead : n.role = .leader → n.mcTerm = n.term

/-- Messages carry a version no newer than their term; those of leaders the version of it. -/
def Fits : Msg → Prop
  | .reqVote m => m.mcTerm ≤ m.term
  | .vote m => m.mcTerm ≤ m.term
  | .ae m => m.mcTerm = m.term
  | .ack m => m.mcTerm ≤ m.term

structure Inv0 (s : Sys) : Prop where
  node : ∀ v, Fit (s.nodes v)
  msg : ∀ m ∈ s.msgs, Fits m

theorem inv0_init : Inv0 {} :=
  ⟨fun _ => ⟨Nat.le_refl _, Nat.le_refl _, Or.inr (Nat.le_refl _), by simp⟩, by simp⟩

section
variable {n : Node}

theorem Fit.of_eq {n' : Node} (h : Fit n) (h1 : n'.mcTerm = n.mcTerm) (h2 : n'.term = n.term)
    (h3 : n'.saved.term = n.saved.term) (h4 : n'.saved.mcTerm = n.saved.mcTerm)
    (h5 : n'.role = n.role ∨ n'.role ≠ .leader) : Fit n' := by
  refine ⟨by rw [h1, h2]; exact h.le, by rw [h3, h4]; exact h.saved,
    by rw [h1, h2, h3]; exact h.term, fun hr => ?_⟩
  rcases h5 with h5 | h5
  · rw [h1, h2]; exact h.lead (h5 ▸ hr)
  · exact (h5 hr).elim

theorem Fit.save (h1 : n.mcTerm ≤ n.term) (h2 : n.role = .leader → n.mcTerm = n.term) :
    Fit (save n) := ⟨h1, h1, Or.inr (Nat.le_refl _), h2⟩

theorem Fit.commit (h : Fit n) : Fit (commitWhatWeCan n) := by
  unfold commitWhatWeCan
  split
  · exact Fit.save h.le h.lead
  · exact h

theorem Fit.follower {T mc : Nat} (h : Fit n) (hT : n.term ≤ T) (hm : mc ≤ T) :
    Fit (becomeFollower n T mc true) := by
  have := h.le
  unfold becomeFollower
  dsimp only
  rw [if_pos rfl]
  split
  · exact Fit.save (by dsimp only; omega) (by simp)
  · exact Fit.save h.le (by simp)

theorem follow_saved {m : AE} (h : Fit n) (hm : m.mcTerm = m.term) (hle : n.term ≤ m.term) :
    m.term ≤ (follow n m).saved.term := by
  have h1 := h.le; have h2 := h.term
  unfold follow
  dsimp only
  generalize hx : (if n.mcTerm < m.mcTerm then Raft.save { n with mcTerm := m.mcTerm } else n) = x
  have hxs : m.term ≤ x.saved.term ∨ x.term < m.term := by
    subst hx; split
    · simp only [Raft.save]; omega
    · omega
  have hxt : x.term = n.term := by subst hx; split <;> rfl
  split
  · rename_i h3
    rw [(becomeFollower_eq (Nat.le_of_lt h3)).2.2.2.2.2.2.2.2.2 rfl]
    exact Nat.le_refl _
  · rename_i h3
    exact hxs.resolve_right h3

theorem Fit.follow {m : AE} (h : Fit n) (hm : m.mcTerm = m.term) (hle : n.term ≤ m.term) :
    Fit (follow n m) := by
  have h1 := h.le; have h2 := h.term; have h3 := h.saved
  unfold Raft.follow
  dsimp only
  by_cases hc : n.mcTerm < m.mcTerm
  · rw [if_pos hc]
    by_cases ht : n.term < m.term
    · rw [if_pos (by exact ht)]
      unfold becomeFollower
      dsimp only
      rw [if_pos (show (Raft.save { n with mcTerm := m.mcTerm }).term < m.term ∨ _ from Or.inl ht), if_pos rfl]
      refine Fit.save ?_ (by simp)
      simp [Raft.save]; omega
    · rw [if_neg (by exact ht)]
      exact ⟨by simp [Raft.save]; omega, by simp [Raft.save]; omega, by simp [Raft.save], by simp⟩
  · rw [if_neg hc]
    split
    · rename_i ht
      exact h.follower hle (by omega)
    · exact h.of_eq rfl rfl rfl rfl (Or.inr (by simp))

theorem Fit.ae {me : Nat} {m : AE} (h : Fit n) (hm : m.mcTerm = m.term) :
    Fit (handleAppendEntries me n m).1 ∧
    ∀ w, (handleAppendEntries me n m).2 = some w → w.mcTerm ≤ w.term := by
  have h0 : Fit { n with commit := max n.commit (min m.commit (commonPrefix m.terms (terms n.log))) } :=
    h.of_eq rfl rfl rfl rfl (Or.inl rfl)
  rcases handleAE_cases me n m with ⟨_, e⟩ | ⟨n1, rej, ns, k, e, _, h2⟩
  · rw [e]; exact ⟨h, by simp⟩
  · have hn : Fit n1 := by
      rcases h2 with ⟨_, rfl, _⟩ | ⟨hle, rfl, _⟩ | ⟨hle, _, log, _, _, _, _, rfl⟩
      · exact h0
      · exact h0.follow hm hle
      · exact (h0.follow hm hle).of_eq rfl rfl rfl rfl (Or.inl rfl)
    rw [e]
    refine ⟨hn.commit, ?_⟩
    intro w hw
    cases hw
    exact hn.le

theorem Fit.lead' {mem : List Nat} {noop : Nat} {n' : Node} (h : becomeLeader mem noop n = some n') :
    Fit n' := by
  have e := becomeLeader_eq h
  exact ⟨by omega, by omega, Or.inr (by omega), fun _ => by omega⟩

end

theorem inv0_put {mem : List Nat} {s : Sys} {v : Nat} {n' : Node} {ms : List Msg} (F : Inv0 s)
    (h1 : Fit n') (h2 : ∀ m ∈ ms, Fits m) : Inv0 (s.put mem v n' ms) := by
  refine ⟨fun u => ?_, fun m hm => ?_⟩
  · by_cases h : u = v
    · subst h; rw [put_nodes_self]; exact h1
    · rw [put_nodes_ne h]; exact F.node u
  · rcases mem_put_msgs.1 hm with h | h
    · exact F.msg m h
    · exact h2 m h

theorem inv0_of_tr {mem : List Nat} {s : Sys} {a : Action} {v : Nat} {n' : Node} {ms : List Msg}
    (F : Inv0 s) (h : Tr mem s a v n' ms) : Fit n' ∧ ∀ m ∈ ms, Fits m := by
  have hf := F.node v
  cases h with
  | timeout hv hr hb =>
    rcases beginElection_eq hv hr hb with ⟨h1, h2, rfl⟩ | ⟨h1, rfl, rfl⟩
    · exact ⟨Fit.lead' h2, by simp⟩
    · have := hf.le
      refine ⟨⟨by dsimp only; omega, hf.saved, Or.inl (by dsimp only; omega), by simp⟩, ?_⟩
      intro m hm
      rw [List.mem_singleton] at hm
      subst hm
      simp only [Fits]; omega
  | preVote hv hr => exact ⟨hf.of_eq rfl rfl rfl rfl (Or.inr (by simp)), by simp⟩
  | stepDown hv hr => exact ⟨hf.follower (Nat.le_refl _) (Nat.zero_le _), by simp⟩
  | reqVote hv hk hne =>
    rename_i k noop st nf fo m
    have hm : m.mcTerm ≤ m.term := F.msg _ (List.mem_of_getElem? hk)
    have e := handleRequestVote_eq v (s.nodes v) m st
    dsimp only at e
    obtain ⟨_, _, _, e4, _, _, _, _, e9, _, _⟩ := e
    refine ⟨?_, ?_⟩
    · have dec : ∀ n1 : Node, n1.mcTerm ≤ n1.term → (n1.role = .leader → n1.mcTerm = n1.term) →
          Fit (decideVote n1 m).1 := by
        intro n1 k1 k2
        unfold decideVote
        split
        · exact Fit.save (n := { n1 with vote := some m.src }) k1 k2
        · exact Fit.save k1 k2
      unfold handleRequestVote
      dsimp only
      split
      · exact hf
      · split
        · exact Fit.save hf.le hf.lead
        · split
          · rename_i ht
            have := hf.le
            refine dec _ ?_ ?_
            · unfold becomeFollower; dsimp only; rw [if_pos (Or.inl ht), if_neg (by simp)]
              dsimp only; omega
            · have := (becomeFollower_eq (n := s.nodes v) (mc := m.mcTerm) (sv := false) (Nat.le_of_lt ht)).1
              intro hx; rw [this] at hx; cases hx
          · split
            · exact hf
            · exact dec _ hf.le hf.lead
    · intro w hw
      rw [List.mem_singleton] at hw
      subst hw
      show (handleRequestVote v (s.nodes v) m st).2.mcTerm ≤ (handleRequestVote v (s.nodes v) m st).2.term
      rw [e4]
      exact Nat.le_trans (show (s.nodes v).mcTerm ≤ (s.nodes v).term from hf.le) e9.term
  | vote hv hk hto ht =>
    rename_i k noop st nf fo m
    have hm : m.mcTerm ≤ m.term := F.msg _ (List.mem_of_getElem? hk)
    have c := countVote_eq v (s.nodes v) m
    have hc : Fit (countVote v (s.nodes v) m) :=
      hf.of_eq c.2.2.2.2.1 c.2.1 (by rw [c.2.2.2.2.2.1]) (by rw [c.2.2.2.2.2.1]) (Or.inl c.1)
    refine ⟨?_, by simp⟩
    rcases tallyVote_cases ht with rfl | ⟨T, mc, sv, hT, n1, rfl, hn1⟩ | ⟨hr, hterm, hg, h | ⟨hb, hq⟩⟩
    · exact hf
    · rcases hn1 with ⟨rfl, rfl, rfl, rfl⟩ | ⟨rfl, rfl, rfl, rfl⟩
      · exact hf.follower hT hm
      · unfold becomeFollower
        dsimp only
        rw [if_neg (show ¬ ((countVote v (s.nodes v) m).term < (countVote v (s.nodes v) m).term ∨
          (countVote v (s.nodes v) m).mcTerm < 0) by omega), if_neg (by simp)]
        exact hc.of_eq rfl rfl rfl rfl (Or.inr (by simp))
    · rw [h]; exact hc
    · exact Fit.lead' hb
  | ae hv hk hne =>
    rename_i k noop st nf fo m
    have hm : m.mcTerm = m.term := F.msg _ (List.mem_of_getElem? hk)
    have e := hf.ae (me := v) hm
    refine ⟨e.1, ?_⟩
    intro w hw
    rw [List.mem_map] at hw
    obtain ⟨a, ha, rfl⟩ := hw
    exact e.2 a (by simpa using ha)
  | ack hv hk hto =>
    rename_i k noop st nf fo m
    have hm : m.mcTerm ≤ m.term := F.msg _ (List.mem_of_getElem? hk)
    refine ⟨?_, by simp⟩
    rcases handleAck_cases mem v (s.nodes v) m nf fo with ⟨mc, hlt, h, rfl⟩ | h | ⟨hr, hterm, x, _, h | h⟩ <;> rw [h]
    · exact hf.follower (Nat.le_of_lt hlt) hm
    · exact hf
    · exact hf.of_eq rfl rfl rfl rfl (Or.inl rfl)
    · have h0 : Fit { s.nodes v with peers := setMatch (s.nodes v).peers m.src x } :=
        hf.of_eq rfl rfl rfl rfl (Or.inl rfl)
      rcases leaderAdvance_cases mem { s.nodes v with peers := setMatch (s.nodes v).peers m.src x } nf
        with h1 | ⟨i, _, _, _, _, _, h1⟩ <;> rw [h1]
      · exact h0
      · exact Fit.commit (h0.of_eq rfl rfl rfl rfl (Or.inl rfl))
  | client hv hr =>
    refine ⟨?_, by simp⟩
    unfold replicateBatch
    dsimp only
    split
    · exact Fit.commit (hf.of_eq rfl rfl rfl rfl (Or.inl rfl))
    · exact hf.of_eq rfl rfl rfl rfl (Or.inl rfl)
  | send hv hr hcnt =>
    refine ⟨hf, ?_⟩
    intro w hw
    rw [List.mem_singleton] at hw
    subst hw
    exact hf.lead hr
  | join hv => exact ⟨hf.of_eq rfl rfl rfl rfl (Or.inl rfl), by simp⟩
  | leave hv => exact ⟨hf.of_eq rfl rfl rfl rfl (Or.inl rfl), by simp⟩
  | crash hv => exact ⟨⟨hf.saved, hf.saved, Or.inr (Nat.le_refl _), by simp [restart]⟩, by simp⟩

end Verif.Raft

import Verif.Proofs.RaftCompact
/-
Handlers other than that of AppendEntries only add to the log and to what is applied, and save
what they apply.
-/
namespace Verif.Raft

/-- The log and the applied part grow, and what is applied is saved. -/
structure Grow (n n' : Node) : Prop where
  log : n.log <+: n'.log
  appl : n.saved.applied = n.applied → n.applied ≤ n'.applied
  sv : n.saved.applied = n.applied → n'.saved.applied = n'.applied

theorem Grow.refl (n : Node) : Grow n n := ⟨List.prefix_refl _, fun _ => Nat.le_refl _, id⟩

theorem Grow.trans {a b c : Node} (h : Grow a b) (h' : Grow b c) : Grow a c :=
  ⟨h.log.trans h'.log, fun e => Nat.le_trans (h.appl e) (h'.appl (h.sv e)), fun e => h'.sv (h.sv e)⟩

theorem Grow.same {a b : Node} (h1 : a.log <+: b.log) (h2 : b.applied = a.applied) (h3 : b.saved = a.saved) :
    Grow a b := ⟨h1, fun _ => by omega, fun e => by rw [h3, h2]; exact e⟩

theorem grow_save (n : Node) : Grow n (save n) :=
  ⟨List.prefix_refl _, fun _ => Nat.le_refl _, fun _ => rfl⟩

theorem grow_commit (n : Node) : Grow n (commitWhatWeCan n) := by
  unfold commitWhatWeCan
  split
  · rename_i h
    exact ⟨List.prefix_refl _, fun _ => Nat.le_of_lt h, fun _ => rfl⟩
  · exact Grow.refl n

theorem grow_becomeFollower (n : Node) (T mc : Nat) (sv : Bool) : Grow n (becomeFollower n T mc sv) := by
  unfold becomeFollower
  dsimp only
  have : Grow n (if n.term < T ∨ n.mcTerm < mc then
      { n with role := .follower, term := T, vote := none, mcTerm := max n.mcTerm mc }
    else { n with role := .follower }) := by
    split <;> exact Grow.same (List.prefix_refl _) rfl rfl
  split
  · exact this.trans (grow_save _)
  · exact this

theorem grow_follow (n : Node) (m : AE) : Grow n (follow n m) := by
  unfold follow
  dsimp only
  have : Grow n (if n.mcTerm < m.mcTerm then save { n with mcTerm := m.mcTerm } else n) := by
    split
    · exact (Grow.same (a := n) (b := { n with mcTerm := m.mcTerm }) (List.prefix_refl _) rfl rfl).trans (grow_save _)
    · exact Grow.refl n
  refine this.trans ?_
  generalize (if n.mcTerm < m.mcTerm then save { n with mcTerm := m.mcTerm } else n) = x
  split
  · exact grow_becomeFollower _ _ _ _
  · exact Grow.same (List.prefix_refl _) rfl rfl

theorem grow_becomeLeader {mem : List Nat} {noop : Nat} {n n' : Node}
    (h : becomeLeader mem noop n = some n') : Grow n n' := by
  unfold becomeLeader at h
  split at h
  · cases h
  · split at h
    · cases h
    · split at h
      · cases h
      · dsimp only at h
        split at h
        · cases h
          refine Grow.trans ?_ (grow_save _)
          refine Grow.trans ?_ (grow_commit _)
          exact Grow.same (List.prefix_append _ _) rfl rfl
        · cases h
          refine Grow.trans ?_ (grow_save _)
          exact Grow.same (List.prefix_append _ _) rfl rfl

theorem grow_decideVote (n : Node) (m : ReqVote) : Grow n (decideVote n m).1 := by
  unfold decideVote
  split
  · exact (Grow.same (a := n) (b := { n with vote := some m.src }) (List.prefix_refl _) rfl rfl).trans (grow_save _)
  · exact grow_save n

theorem grow_requestVote (me : Nat) (n : Node) (m : ReqVote) (st : Bool) :
    Grow n (handleRequestVote me n m st).1 := by
  unfold handleRequestVote
  dsimp only
  split
  · exact Grow.refl n
  · split
    · exact grow_save n
    · split
      · exact (grow_becomeFollower _ _ _ _).trans (grow_decideVote _ _)
      · split
        · exact Grow.refl n
        · exact grow_decideVote _ _

theorem grow_countVote (me : Nat) (n : Node) (m : Vote) : Grow n (countVote me n m) := by
  unfold countVote
  split
  · split <;> exact Grow.same (List.prefix_refl _) rfl rfl
  · exact Grow.refl n

theorem grow_tally {mem : List Nat} {me noop : Nat} {n n' : Node} {m : Vote} {nf : Bool}
    (h : tallyVote mem me noop n m nf = some n') : Grow n n' := by
  rcases tallyVote_cases h with rfl | ⟨T, mc, sv, _, n1, rfl, ⟨rfl, _⟩ | ⟨rfl, _⟩⟩ | ⟨_, _, _, rfl | ⟨h1, _⟩⟩
  · exact Grow.refl _
  · exact grow_becomeFollower _ _ _ _
  · exact (grow_countVote _ _ _).trans (grow_becomeFollower _ _ _ _)
  · exact grow_countVote _ _ _
  · exact (grow_countVote _ _ _).trans (grow_becomeLeader h1)

theorem grow_advance (mem : List Nat) (n : Node) (nf : Bool) : Grow n (leaderAdvanceCommitIndex mem n nf) := by
  rcases leaderAdvance_cases mem n nf with h | ⟨i, _, _, _, _, _, h⟩ <;> rw [h]
  · exact Grow.refl n
  · exact (Grow.same (a := n) (b := { n with commit := i }) (List.prefix_refl _) rfl rfl).trans (grow_commit _)

theorem grow_ack (mem : List Nat) (me : Nat) (n : Node) (m : Ack) (nf fo : Bool) :
    Grow n (handleAck mem me n m nf fo) := by
  rcases handleAck_cases mem me n m nf fo with ⟨mc, _, h, _⟩ | h | ⟨_, _, x, _, h | h⟩ <;> rw [h]
  · exact grow_becomeFollower _ _ _ _
  · exact Grow.refl n
  · exact Grow.same (List.prefix_refl _) rfl rfl
  · exact (Grow.same (a := n) (b := { n with peers := setMatch n.peers m.src x }) (List.prefix_refl _) rfl rfl).trans
      (grow_advance _ _ _)

theorem grow_batch (mem : List Nat) (n : Node) (cmds : List Nat) : Grow n (replicateBatch mem n cmds) := by
  unfold replicateBatch
  dsimp only
  split
  · refine Grow.trans ?_ (grow_commit _)
    exact Grow.same (List.prefix_append _ _) rfl rfl
  · exact Grow.same (List.prefix_append _ _) rfl rfl

theorem grow_begin {mem : List Nat} {me noop : Nat} {n n' : Node} {ms : List Msg}
    (h : beginElection mem me noop n = some (n', ms)) : Grow n n' := by
  unfold beginElection at h
  split at h
  · cases h; exact Grow.refl _
  · split at h
    · rw [Option.map_eq_some_iff] at h
      obtain ⟨x, h2, h3⟩ := h
      cases h3
      exact grow_becomeLeader h2
    · cases h
      exact Grow.same (List.prefix_refl _) rfl rfl

/-- What committed positions of two logs have in common. -/
theorem com_cmp {mem : List Nat} {s : Sys} (I : Invs mem s) {T T' a b c : Nat} {A B : List Entry}
    (hA : ComOK mem s T a A) (hB : ComOK mem s T' b B) (ha : c ≤ a) (hb : c ≤ b) : A.take c = B.take c := by
  rcases Nat.eq_zero_or_pos c with rfl | h0
  · simp
  · rcases hA with h | ⟨t, i, h1, _, h3, h4⟩
    · omega
    rcases hB with h | ⟨t', i', h1', _, h3', h4'⟩
    · omega
    have l1 := h1.1.2.1
    have l2 := h1'.1.2.1
    have e1 : A.take c = (s.hist.lead t).take c := by
      rw [take_prefix_of_prefix h4 (by simp; omega), List.take_take]; congr 1; omega
    have e2 : B.take c = (s.hist.lead t').take c := by
      rw [take_prefix_of_prefix h4' (by simp; omega), List.take_take]; congr 1; omega
    rw [e1, e2]
    rcases Nat.le_total t t' with hle | hle
    · have := h1.lead I.i2 h1'.2.1 hle
      rw [take_prefix_of_prefix this (by simp; omega), List.take_take]; congr 1; omega
    · have := h1'.lead I.i2 h1.2.1 hle
      rw [take_prefix_of_prefix this (by simp; omega), List.take_take]; congr 1; omega

theorem ComOK.len {mem : List Nat} {s : Sys} {T c : Nat} {L : List Entry} (h : ComOK mem s T c L) :
    c ≤ L.length := by
  rcases h with h | ⟨t, i, h1, _, h3, h4⟩
  · omega
  · have l1 := h1.1.2.1
    have := h4.length_le
    rw [List.length_take] at this
    omega

end Verif.Raft

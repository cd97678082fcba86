import Verif.Proofs.LeaseRead
/-
Nothing is applied anywhere before the leader of the term it was committed in knows of it.
-/
namespace Verif.Lease
open Verif.Raft

/-! ### Between steps everything committed is applied -/

def AC (n : Node) : Prop := n.applied = n.commit ∧ n.saved.applied = n.saved.commit

def AB (n : Node) : Prop := n.applied ≤ n.commit ∧ (n.applied = n.commit → n.saved.applied = n.saved.commit)

theorem AC.ab {n : Node} (h : AC n) : AB n := ⟨Nat.le_of_eq h.1, fun _ => h.2⟩

theorem ab_save {n : Node} (h : n.applied ≤ n.commit) : AB (save n) := ⟨h, fun h => h⟩

theorem ac_save {n : Node} (h : n.applied = n.commit) : AC (save n) := ⟨h, h⟩

theorem ac_commit {n : Node} (h : AB n) : AC (commitWhatWeCan n) := by
  unfold commitWhatWeCan
  split
  · exact ⟨rfl, rfl⟩
  · have h1 := h.1
    have : n.applied = n.commit := by omega
    exact ⟨this, h.2 this⟩

theorem ab_raise {n n1 : Node} (h : AB n) (hc : n.commit ≤ n1.commit) (ha : n1.applied = n.applied)
    (hs : n1.saved = n.saved) : AB n1 := by
  have h1 := h.1
  refine ⟨by omega, fun he => ?_⟩
  rw [hs]; exact h.2 (by omega)

theorem ab_follower {n : Node} {T mc sv} (h : AB n) : AB (becomeFollower n T mc sv) := by
  unfold becomeFollower
  dsimp only
  split <;> split <;> first | exact h | exact ab_save h.1

theorem ac_follower {n : Node} {T mc sv} (h : AC n) : AC (becomeFollower n T mc sv) := by
  unfold becomeFollower
  dsimp only
  split <;> split <;> first | exact h | exact ac_save h.1

theorem ab_follow {n : Node} {m : AE} (h : AB n) : AB (follow n m) := by
  have key : ∀ n1 : Node, AB n1 → AB (if n1.term < m.term then becomeFollower n1 m.term m.mcTerm true
      else { n1 with role := .follower }) := by
    intro n1 h1; split
    · exact ab_follower h1
    · exact h1
  unfold follow
  dsimp only
  apply key
  split
  · exact ab_save h.1
  · exact h

theorem ac_decideVote {n : Node} {m : ReqVote} (h : AC n) : AC (decideVote n m).1 := by
  unfold decideVote
  split
  · exact ac_save h.1
  · exact ac_save h.1

theorem ac_requestVote {me : Nat} {n : Node} {m : ReqVote} {st : Bool} (h : AC n) :
    AC (handleRequestVote me n m st).1 := by
  unfold handleRequestVote
  dsimp only
  split
  · exact h
  · split
    · exact ac_save h.1
    · split
      · exact ac_decideVote (ac_follower h)
      · split
        · exact h
        · exact ac_decideVote h

theorem ac_becomeLeader {mem : List Nat} {noop : Nat} {n n' : Node} (h : AC n)
    (hb : becomeLeader mem noop n = some n') (hc : n.commit ≤ n.log.length + 1) : AC n' := by
  unfold becomeLeader at hb
  split at hb
  · cases hb
  · split at hb
    · cases hb
    · split at hb
      · cases hb
      · dsimp only at hb
        split at hb
        · cases hb
          refine ac_save (ac_commit ?_).1
          refine ab_raise (n := n) h.ab ?_ rfl rfl
          simp; exact hc
        · cases hb
          exact ac_save h.1

section
variable {mem : List Nat} {s : Sys} {a : Action} {v : Nat} {n' : Node} {ms : List Msg}

theorem commit_le {mem : List Nat} {s : Sys} (I3 : Inv3 mem s) (v : Nat) :
    (s.nodes v).commit ≤ (s.nodes v).log.length := by
  rcases I3.com v with h | ⟨t, i, h1, _, h3, h4⟩
  · omega
  · have := h4.length_le
    have := h1.1.2.1
    simp at *
    omega

theorem ac_tr (I3 : Inv3 mem s) (h : AC (s.nodes v)) (htr : Tr mem s a v n' ms) : AC n' := by
  have hcl := commit_le I3 v
  cases htr with
  | timeout hv hr hb =>
    rcases beginElection_eq hv hr hb with ⟨_, h2, rfl⟩ | ⟨_, rfl, rfl⟩
    · exact ac_becomeLeader h h2 (by omega)
    · exact h
  | preVote => exact h
  | stepDown => exact ac_follower h
  | reqVote => exact ac_requestVote h
  | vote hv hk hto ht =>
    rename_i k noop st nf fo m
    have c := countVote_eq v (s.nodes v) m
    have hc : AC (countVote v (s.nodes v) m) := by
      unfold AC
      rw [c.2.2.2.2.2.1, c.2.2.2.2.2.2.2.1, c.2.2.2.2.2.2.2.2.1]; exact h
    rcases tallyVote_cases ht with rfl | ⟨T, mc, sv, hT, n1, rfl, hn1⟩ | ⟨hr, hterm, hg, rfl | ⟨hb, hq⟩⟩
    · exact h
    · rcases hn1 with ⟨rfl, _⟩ | ⟨rfl, _⟩
      · exact ac_follower h
      · exact ac_follower hc
    · exact hc
    · exact ac_becomeLeader hc hb (by rw [c.2.2.2.2.2.2.2.1, c.2.2.1]; omega)
  | ae hv hk hne =>
    rename_i k noop st nf fo m
    rcases handleAE_cases v (s.nodes v) m with ⟨_, h'⟩ | ⟨n1, rej, ns, q, h', h1, h2⟩
    · rw [h']; exact h
    · rw [h']
      apply ac_commit
      have h0 : AB { s.nodes v with commit := max (s.nodes v).commit (min m.commit (commonPrefix m.terms (terms (s.nodes v).log))) } :=
        ab_raise h.ab (Nat.le_max_left _ _) rfl rfl
      rcases h2 with ⟨_, rfl, _⟩ | ⟨_, rfl, _⟩ | ⟨hle, _, log, _, _, _, _, rfl⟩
      · exact h0
      · exact ab_follow h0
      · refine ab_raise (ab_follow (m := m) h0) ?_ rfl rfl
        have f := follow_eq (n := { s.nodes v with commit := max (s.nodes v).commit (min m.commit (commonPrefix m.terms (terms (s.nodes v).log))) }) hle
        rw [f.2.2.2.2.1]; exact Nat.le_max_left _ _
  | ack hv hk hto =>
    rename_i k noop st nf fo m
    rcases handleAck_cases mem v (s.nodes v) m nf fo with ⟨mc, hlt, h', _⟩ | h' | ⟨hr, hterm, x, _, h' | h'⟩ <;> rw [h']
    · exact ac_follower h
    · exact h
    · exact h
    · rcases leaderAdvance_cases mem { s.nodes v with peers := setMatch (s.nodes v).peers m.src x } nf
        with h1 | ⟨i, h1, h2, h3, h4, h5, h6⟩
      · rw [h1]; exact h
      · rw [h6]
        exact ac_commit (ab_raise (n := s.nodes v) h.ab (Nat.le_of_lt h3) rfl rfl)
  | client hv hr =>
    unfold replicateBatch
    dsimp only
    split
    · refine ac_commit (ab_raise (n := s.nodes v) h.ab ?_ rfl rfl)
      simp; omega
    · exact h
  | send => exact h
  | join => exact h
  | leave => exact h
  | crash => exact ⟨h.2, h.2⟩

/-- Where a higher commit index comes from. -/
theorem commit_tr (I3 : Inv3 mem s) (htr : Tr mem s a v n' ms) :
    n'.commit ≤ (s.nodes v).commit ∨
    (∃ m, Msg.ae m ∈ s.msgs ∧ n'.commit ≤ max (s.nodes v).commit m.commit) ∨
    (n'.role = .leader ∧ (mem.length = 1 ∨ (0 < n'.commit ∧ n'.commit ≤ n'.log.length ∧
      termAt n'.log n'.commit = n'.term))) := by
  cases htr with
  | timeout hv hr hb =>
    rcases beginElection_eq hv hr hb with ⟨h1, h2, rfl⟩ | ⟨_, rfl, rfl⟩
    · exact Or.inr (Or.inr ⟨(becomeLeader_eq h2).2.1, Or.inl h1⟩)
    · exact Or.inl (Nat.le_refl _)
  | preVote => exact Or.inl (Nat.le_refl _)
  | stepDown => exact Or.inl (Nat.le_of_eq (becomeFollower_eq (Nat.le_refl _)).2.2.2.2.2.2.1)
  | reqVote =>
    rename_i k noop st nf fo m _ _ _
    exact Or.inl (Nat.le_of_eq (handleRequestVote_eq v (s.nodes v) m st).2.2.2.2.2.2.1)
  | vote hv hk hto ht =>
    rename_i k noop st nf fo m
    have c := countVote_eq v (s.nodes v) m
    rcases tallyVote_cases ht with rfl | ⟨T, mc, sv, hT, n1, rfl, hn1⟩ | ⟨hr, hterm, hg, rfl | ⟨hb, hq⟩⟩
    · exact Or.inl (Nat.le_refl _)
    · rcases hn1 with ⟨rfl, _⟩ | ⟨rfl, _⟩
      · exact Or.inl (Nat.le_of_eq (becomeFollower_eq hT).2.2.2.2.2.2.1)
      · refine Or.inl (Nat.le_of_eq ?_)
        rw [(becomeFollower_eq (by rw [c.2.1]; exact hT)).2.2.2.2.2.2.1]
        exact c.2.2.2.2.2.2.2.1
    · exact Or.inl (Nat.le_of_eq c.2.2.2.2.2.2.2.1)
    · have e := becomeLeader_eq hb
      by_cases h1 : mem.length = 1
      · exact Or.inr (Or.inr ⟨e.2.1, Or.inl h1⟩)
      · left
        rw [(e.2.2.2.2.2.2.2.2.2.2.2.2.1 h1).1, c.2.2.2.2.2.2.2.1]
        exact Nat.le_refl _
  | ae hv hk hne =>
    rename_i k noop st nf fo m
    right; left
    refine ⟨m, List.mem_of_getElem? hk, ?_⟩
    rcases handleAE_cases v (s.nodes v) m with ⟨_, h'⟩ | ⟨n1, rej, ns, q, h', h1, h2⟩
    · rw [h']; exact Nat.le_max_left _ _
    · rw [h']
      have cw := (commitWhatWeCan_eq n1).2.2.2.2.2.2.2.2
      dsimp only
      rw [cw]
      rcases h2 with ⟨_, rfl, _⟩ | ⟨hle, rfl, _⟩ | ⟨hle, _, log, _, _, _, _, rfl⟩
      · dsimp only; omega
      · have f := follow_eq (n := { s.nodes v with commit := max (s.nodes v).commit (min m.commit (commonPrefix m.terms (terms (s.nodes v).log))) }) hle
        rw [f.2.2.2.2.1]; dsimp only; omega
      · dsimp only; omega
  | ack hv hk hto =>
    rename_i k noop st nf fo m
    rcases handleAck_cases mem v (s.nodes v) m nf fo with ⟨mc, hlt, h', _⟩ | h' | ⟨hr, hterm, x, _, h' | h'⟩ <;> rw [h']
    · exact Or.inl (Nat.le_of_eq (becomeFollower_eq (Nat.le_of_lt hlt)).2.2.2.2.2.2.1)
    · exact Or.inl (Nat.le_refl _)
    · exact Or.inl (Nat.le_refl _)
    · rcases leaderAdvance_cases mem { s.nodes v with peers := setMatch (s.nodes v).peers m.src x } nf
        with h1 | ⟨i, h1, h2, h3, h4, h5, h6⟩
      · rw [h1]; exact Or.inl (Nat.le_refl _)
      · rw [h6]
        have cw := commitWhatWeCan_eq { s.nodes v with peers := setMatch (s.nodes v).peers m.src x, commit := i }
        right; right
        dsimp only at h4 h5 ⊢
        rw [cw.1, cw.2.1, cw.2.2.1, cw.2.2.2.2.2.2.2.2]
        exact ⟨hr, Or.inr ⟨h2, h4, h5⟩⟩
  | client hv hr =>
    unfold replicateBatch
    dsimp only
    split
    · right; right
      rw [(commitWhatWeCan_eq _).1]
      exact ⟨hr, Or.inl (by assumption)⟩
    · exact Or.inl (Nat.le_refl _)
  | send => exact Or.inl (Nat.le_refl _)
  | join => exact Or.inl (Nat.le_refl _)
  | leave => exact Or.inl (Nat.le_refl _)
  | crash => exact Or.inl (I3.saved v).1

/-- A leader's commit index never goes back. -/
theorem commit_mono (I3 : Inv3 mem s) (htr : Tr mem s a v n' ms) (hl : n'.role = .leader) :
    (s.nodes v).commit ≤ n'.commit := by
  have hcl := commit_le I3 v
  cases htr with
  | timeout hv hr hb =>
    rcases beginElection_eq hv hr hb with ⟨h1, h2, rfl⟩ | ⟨_, rfl, rfl⟩
    · have e := becomeLeader_eq h2
      rw [(e.2.2.2.2.2.2.2.2.2.2.2.2.2.1 h1).1, e.2.2.2.2.2.2.2.2.2.1]
      simp; omega
    · exact Nat.le_refl _
  | preVote => exact Nat.le_refl _
  | stepDown => exact Nat.le_of_eq (becomeFollower_eq (Nat.le_refl _)).2.2.2.2.2.2.1.symm
  | reqVote =>
    rename_i k noop st nf fo m _ _ _
    exact Nat.le_of_eq (handleRequestVote_eq v (s.nodes v) m st).2.2.2.2.2.2.1.symm
  | vote hv hk hto ht =>
    rename_i k noop st nf fo m
    have c := countVote_eq v (s.nodes v) m
    rcases tallyVote_cases ht with rfl | ⟨T, mc, sv, hT, n1, rfl, hn1⟩ | ⟨hr, hterm, hg, rfl | ⟨hb, hq⟩⟩
    · exact Nat.le_refl _
    · rcases hn1 with ⟨rfl, _⟩ | ⟨rfl, _⟩
      · rw [(becomeFollower_eq hT).1] at hl; cases hl
      · rw [(becomeFollower_eq (by rw [c.2.1]; exact hT)).1] at hl; cases hl
    · exact Nat.le_of_eq c.2.2.2.2.2.2.2.1.symm
    · have e := becomeLeader_eq hb
      by_cases h1 : mem.length = 1
      · rw [(e.2.2.2.2.2.2.2.2.2.2.2.2.2.1 h1).1, e.2.2.2.2.2.2.2.2.2.1, c.2.2.1]
        simp; omega
      · rw [(e.2.2.2.2.2.2.2.2.2.2.2.2.1 h1).1, c.2.2.2.2.2.2.2.1]
        exact Nat.le_refl _
  | ae hv hk hne =>
    rename_i k noop st nf fo m
    by_cases hx : 1 ≤ m.term ∧ (s.nodes v).term ≤ m.term
    · rw [(handleAE_accept hx.1 hx.2).1] at hl; cases hl
    · rcases handleAE_cases v (s.nodes v) m with ⟨_, h'⟩ | ⟨n1, rej, ns, q, h', h1, h2⟩
      · rw [h']; exact Nat.le_refl _
      · rw [h']
        have cw := (commitWhatWeCan_eq n1).2.2.2.2.2.2.2.2
        dsimp only
        rw [cw]
        rcases h2 with ⟨_, rfl, _⟩ | ⟨hle, _⟩ | ⟨hle, _⟩
        · exact Nat.le_max_left _ _
        · exact (hx ⟨h1, hle⟩).elim
        · exact (hx ⟨h1, hle⟩).elim
  | ack hv hk hto =>
    rename_i k noop st nf fo m
    rcases handleAck_cases mem v (s.nodes v) m nf fo with ⟨mc, hlt, h', _⟩ | h' | ⟨hr, hterm, x, _, h' | h'⟩ <;> rw [h']
    · exact Nat.le_of_eq (becomeFollower_eq (Nat.le_of_lt hlt)).2.2.2.2.2.2.1.symm
    · exact Nat.le_refl _
    · exact Nat.le_refl _
    · rcases leaderAdvance_cases mem { s.nodes v with peers := setMatch (s.nodes v).peers m.src x } nf
        with h1 | ⟨i, h1, h2, h3, h4, h5, h6⟩
      · rw [h1]; exact Nat.le_refl _
      · rw [h6, (commitWhatWeCan_eq _).2.2.2.2.2.2.2.2]
        exact Nat.le_of_lt h3
  | client hv hr =>
    unfold replicateBatch
    dsimp only
    split
    · rw [(commitWhatWeCan_eq _).2.2.2.2.2.2.2.2]
      simp; omega
    · exact Nat.le_refl _
  | send => exact Nat.le_refl _
  | join => exact Nat.le_refl _
  | leave => exact Nat.le_refl _
  | crash => cases hl

/-- The leader of a cluster of one has committed all of its log. -/
theorem single_tr (I3 : Inv3 mem s) (hlen : mem.length = 1)
    (h : (s.nodes v).role = .leader → (s.nodes v).commit = (s.nodes v).log.length)
    (htr : Tr mem s a v n' ms) (hl : n'.role = .leader) : n'.commit = n'.log.length := by
  cases htr with
  | timeout hv hr hb =>
    rcases beginElection_eq hv hr hb with ⟨h1, h2, _⟩ | ⟨h1, _⟩
    · exact ((becomeLeader_eq h2).2.2.2.2.2.2.2.2.2.2.2.2.2.1 h1).1
    · exact (h1 hlen).elim
  | preVote => cases hl
  | stepDown => rw [(becomeFollower_eq (Nat.le_refl _)).1] at hl; cases hl
  | reqVote =>
    rename_i k noop st nf fo m _ _ _
    have e := handleRequestVote_eq v (s.nodes v) m st
    dsimp only at e
    rcases e.2.2.2.2.2.2.2.2.2.1 with h1 | h1
    · rw [h1.1] at hl
      rw [e.2.2.2.2.2.2.1, e.2.2.2.2.1]; exact h hl
    · rw [h1.1] at hl; cases hl
  | vote hv hk hto ht =>
    rename_i k noop st nf fo m
    have c := countVote_eq v (s.nodes v) m
    rcases tallyVote_cases ht with rfl | ⟨T, mc, sv, hT, n1, rfl, hn1⟩ | ⟨hr, hterm, hg, rfl | ⟨hb, hq⟩⟩
    · exact h hl
    · rcases hn1 with ⟨rfl, _⟩ | ⟨rfl, _⟩
      · rw [(becomeFollower_eq hT).1] at hl; cases hl
      · rw [(becomeFollower_eq (by rw [c.2.1]; exact hT)).1] at hl; cases hl
    · rw [c.1, hr] at hl; cases hl
    · exact ((becomeLeader_eq hb).2.2.2.2.2.2.2.2.2.2.2.2.2.1 hlen).1
  | ae hv hk hne =>
    rename_i k noop st nf fo m
    by_cases hx : 1 ≤ m.term ∧ (s.nodes v).term ≤ m.term
    · rw [(handleAE_accept hx.1 hx.2).1] at hl; cases hl
    · rw [(handleAE_refuse hx).1] at hl
      have hc := h hl
      rcases handleAE_cases v (s.nodes v) m with ⟨_, h'⟩ | ⟨n1, rej, ns, q, h', h1, h2⟩
      · rw [h']; exact hc
      · rw [h']
        have cw := commitWhatWeCan_eq n1
        dsimp only
        rw [cw.2.2.2.2.2.2.2.2, cw.2.2.1]
        rcases h2 with ⟨_, rfl, _⟩ | ⟨hle, _⟩ | ⟨hle, _⟩
        · dsimp only
          have := commonPrefix_le_right m.terms (terms (s.nodes v).log)
          rw [terms_length] at this
          omega
        · exact (hx ⟨h1, hle⟩).elim
        · exact (hx ⟨h1, hle⟩).elim
  | ack hv hk hto =>
    rename_i k noop st nf fo m
    rcases handleAck_cases mem v (s.nodes v) m nf fo with ⟨mc, hlt, h', _⟩ | h' | ⟨hr, hterm, x, _, h' | h'⟩ <;> rw [h'] at hl ⊢
    · rw [(becomeFollower_eq (Nat.le_of_lt hlt)).1] at hl; cases hl
    · exact h hl
    · exact h hr
    · rcases leaderAdvance_cases mem { s.nodes v with peers := setMatch (s.nodes v).peers m.src x } nf
        with h1 | ⟨i, h1, h2, h3, h4, h5, h6⟩
      · rw [h1]; exact h hr
      · have := h hr
        dsimp only at h3 h4
        omega
  | client hv hr =>
    unfold replicateBatch
    dsimp only
    rw [if_pos hlen, (commitWhatWeCan_eq _).2.2.2.2.2.2.2.2, (commitWhatWeCan_eq _).2.2.1]
  | send hv hr => exact h hr
  | join => exact h hl
  | leave => exact h hl
  | crash => cases hl

/-! ### Known to the leader -/

/-- Index `x` was committed in a term whose leader, if still in office, knows. -/
def Known (mem : List Nat) (s : Sys) (x : Nat) : Prop :=
  x = 0 ∨ ∃ t i, Committed mem s t i ∧ x ≤ i ∧
    ∀ w, (s.nodes w).role = .leader → (s.nodes w).term = t → x ≤ (s.nodes w).commit

theorem Known.le {x y : Nat} (h : Known mem s x) (hle : y ≤ x) : Known mem s y := by
  rcases h with h | ⟨t, i, h1, h2, h3⟩
  · left; omega
  · exact Or.inr ⟨t, i, h1, by omega, fun w hw ht => Nat.le_trans hle (h3 w hw ht)⟩

theorem Known.put {x : Nat} (I : Inv1 mem s) (I3 : Inv3 mem s) (htr : Tr mem s a v n' ms)
    (h : Known mem s x) : Known mem (s.put mem v n' ms) x := by
  have G := good1_of_tr I htr
  rcases h with h | ⟨t, i, h1, h2, h3⟩
  · exact Or.inl h
  · refine Or.inr ⟨t, i, committed_mono I G h1, h2, fun w hw ht => ?_⟩
    by_cases hwv : w = v
    · rw [hwv, put_nodes_self] at hw ht ⊢
      rcases G.lead hw with ⟨k1, k2, _⟩ | ⟨k1, _⟩
      · exact Nat.le_trans (h3 v k1 (by omega)) (commit_mono I3 htr hw)
      · exact (fresh_term I G hw k1 (by rw [ht]; exact h1.2.1)).elim
    · rw [put_nodes_ne hwv] at hw ht ⊢
      exact h3 w hw ht

structure KInv (mem : List Nat) (s : Sys) : Prop where
  ac : ∀ v, AC (s.nodes v)
  com : ∀ v, Known mem s (s.nodes v).commit
  ae : ∀ m, Msg.ae m ∈ s.msgs → Known mem s m.commit
  appl : ∀ v idx e, (v, idx, e) ∈ s.hist.applied → Known mem s idx

theorem kinv_init (mem : List Nat) : KInv mem {} := by
  constructor <;> intros <;> simp_all [Known, AC]

theorem KInv.put (I : Inv1 mem s) (I3 : Inv3 mem s) (K : KInv mem s)
    (I' : Inv1 mem (s.put mem v n' ms)) (I2' : Inv2 mem (s.put mem v n' ms)) (I3' : Inv3 mem (s.put mem v n' ms))
    (htr : Tr mem s a v n' ms) : KInv mem (s.put mem v n' ms) := by
  have G := good1_of_tr I htr
  have hac := ac_tr I3 (K.ac v) htr
  have hself : (s.put mem v n' ms).nodes v = n' := put_nodes_self
  have hcom : Known mem (s.put mem v n' ms) n'.commit := by
    rcases commit_tr I3 htr with h | ⟨m, hm, h⟩ | ⟨hl, h⟩
    · exact ((K.com v).put I I3 htr).le h
    · rcases Nat.le_total (s.nodes v).commit m.commit with hle | hle
      · exact ((K.ae m hm).put I I3 htr).le (by omega)
      · exact ((K.com v).put I I3 htr).le (by omega)
    · have hc := I3'.com v
      rw [hself] at hc
      rcases hc with hc | ⟨t, i, h1, h2, h3, h4⟩
      · exact Or.inl hc
      · refine Or.inr ⟨t, i, h1, h3, fun w hw ht => ?_⟩
        have hwv : w = v := by
          rcases h with h | ⟨k1, k2, k3⟩
          · have e1 := G.isMem
            obtain ⟨Q, hQ⟩ := I'.leaderEl w hw
            have hb := (I'.elQ _ _ _ hQ).2
            have e2 : w ∈ mem := hb.2.1 hb.2.2.1
            match mem, h with
            | [x], _ => rw [List.mem_singleton] at e1 e2; omega
          · -- the index carries the leader's own term
            have hst := I'.savedTerm v
            rw [hself] at hst
            have htn : t = n'.term := by
              refine Nat.le_antisymm (by omega) ?_
              have hlen : ((((s.put mem v n' ms).hist.lead t).take n'.commit)).length = n'.commit := by
                have := h1.1.2.1; simp at *; omega
              have e1 : termAt n'.log n'.commit =
                  termAt (((s.put mem v n' ms).hist.lead t).take n'.commit) n'.commit :=
                termAt_prefix h4 (by omega)
              have e2 : termAt ((s.put mem v n' ms).hist.lead t) n'.commit =
                  termAt (((s.put mem v n' ms).hist.lead t).take n'.commit) n'.commit :=
                termAt_prefix (List.take_prefix _ _) (by omega)
              have e3 := (I2'.leadMono t).termAt_le k1 h3 h1.1.2.1
              have e4 := h1.1.2.2
              omega
            obtain ⟨Q, hQ⟩ := I'.leaderEl w hw
            obtain ⟨Q', hQ'⟩ := I'.leaderEl v (by rw [hself]; exact hl)
            rw [hself] at hQ'
            rw [ht, htn] at hQ
            have := I'.elUniq _ _ _ _ _ hQ hQ'
            exact congrArg Prod.fst this
        rw [hwv, hself]; exact Nat.le_refl _
  refine ⟨fun w => ?_, fun w => ?_, fun m hm => ?_, fun w idx e h => ?_⟩
  · by_cases hw : w = v
    · rw [hw, hself]; exact hac
    · rw [put_nodes_ne hw]; exact K.ac w
  · by_cases hw : w = v
    · rw [hw, hself]; exact hcom
    · rw [put_nodes_ne hw]; exact (K.com w).put I I3 htr
  · rcases mem_put_msgs.1 hm with h | h
    · exact (K.ae m h).put I I3 htr
    · cases htr with
      | timeout hv hr hb =>
        rcases beginElection_eq hv hr hb with ⟨_, _, rfl⟩ | ⟨_, _, rfl⟩ <;> simp at h
      | send hv hr hc =>
        rename_i beg cnt
        simp only [List.mem_singleton, Msg.ae.injEq] at h
        subst h
        exact hcom
      | _ => simp at h
  · have : (w, idx, e) ∈ s.hist.applied ∨ ∃ p ∈ newlyApplied (s.nodes v) n', (v, p.1, p.2) = (w, idx, e) := by
      simpa [Sys.put, List.mem_append, List.mem_map] using h
    rcases this with h | ⟨⟨i', e'⟩, hp, he⟩
    · exact (K.appl w idx e h).put I I3 htr
    · simp only [Prod.mk.injEq] at he
      obtain ⟨_, rfl, rfl⟩ := he
      have := (mem_newlyApplied hp).2.1
      exact hcom.le (by rw [← hac.1]; exact this)

/-- A leader that has applied an entry of its own term, with no later leader elected, has applied
everything applied anywhere. -/
theorem all_applied {T k : Nat} (I : Inv1 mem s) (I2 : Inv2 mem s) (I3 : Inv3 mem s) (K : KInv mem s)
    (hr : (s.nodes v).role = .leader) (hT : (s.nodes v).term = T) (hnew : ∀ T', Elected s.hist T' → T' ≤ T)
    (hk1 : 1 ≤ k) (_ : k ≤ (s.nodes v).log.length) (hk3 : termAt (s.nodes v).log k = T)
    (hk : k ≤ (s.nodes v).applied) {u idx : Nat} {e : Entry} (h : (u, idx, e) ∈ s.hist.applied) :
    1 ≤ idx ∧ idx ≤ (s.nodes v).applied ∧ (s.nodes v).log[idx - 1]? = some e := by
  have hlog := I.leadLog v hr
  rw [hT] at hlog
  have hel : Elected s.hist T := by
    obtain ⟨Q, hQ⟩ := I.leaderEl v hr
    rw [hT] at hQ; exact ⟨_, _, hQ⟩
  obtain ⟨t1, i1, c1, h1, h2, h3⟩ := I3.appl u idx e h
  refine ⟨h1, ?_, ?_⟩
  · rcases K.appl u idx e h with h0 | ⟨t, i, c, h4, h5⟩
    · omega
    · rcases Nat.eq_or_lt_of_le (hnew t c.2.1) with he | hlt
      · rw [(K.ac v).1]; exact h5 v hr (by omega)
      · have hp := c.lead I2 hel (Nat.le_of_lt hlt)
        rw [hlog] at hp
        have hlen : ((s.hist.lead t).take i).length = i := by have := c.1.2.1; simp at *; omega
        have e1 : termAt (s.nodes v).log i = termAt ((s.hist.lead t).take i) i := termAt_prefix hp (by omega)
        have e2 : termAt (s.hist.lead t) i = termAt ((s.hist.lead t).take i) i :=
          termAt_prefix (List.take_prefix _ _) (by omega)
        have e3 := c.1.2.2
        have hil := hp.length_le
        have : i < k := by
          refine Nat.not_le.1 fun hle => ?_
          have := (I2.logMono v).termAt_le hk1 hle (by omega)
          omega
        omega
  · have hp := c1.lead I2 hel (hnew t1 c1.2.1)
    rw [hlog] at hp
    have : ((s.hist.lead t1).take i1)[idx - 1]? = some e := by
      rw [List.getElem?_take]; rw [if_pos (by omega)]; exact h3
    obtain ⟨r, hr⟩ := hp
    rw [← hr, List.getElem?_append_left (List.getElem?_eq_some_iff.1 this).1, this]

/-! ### Timed runs -/

structure FInv (mem : List Nat) (s : Sys) : Prop where
  i0 : Inv0 s
  i1 : Inv1 mem s
  i2 : Inv2 mem s
  i3 : Inv3 mem s
  k : KInv mem s
  single : mem.length = 1 → ∀ v, (s.nodes v).role = .leader → (s.nodes v).commit = (s.nodes v).log.length

theorem finv_init (mem : List Nat) : FInv mem {} :=
  ⟨inv0_init, inv1_init mem, inv2_init mem, inv3_init mem, kinv_init mem,
    (fun _ _ h => nomatch h)⟩

theorem FInv.put (F : FInv mem s) (hc : Careful s a) (htr : Tr mem s a v n' ms) :
    FInv mem (s.put mem v n' ms) := by
  have G := good1_of_tr F.i1 htr
  have G0 := inv0_of_tr F.i0 htr
  have G2 := good2_of_tr F.i0 F.i1 F.i2 hc htr
  have G3 := good3_of_tr F.i0 F.i1 F.i2 F.i3 hc htr
  have I' := F.i1.put G
  have I2' := Inv2.put F.i1 F.i2 G G2
  have I3' := Inv3.put F.i1 F.i3 G G3
  refine ⟨inv0_put F.i0 G0.1 G0.2, I', I2', I3', F.k.put F.i1 F.i3 I' I2' I3' htr, fun hlen w hw => ?_⟩
  by_cases hwv : w = v
  · rw [hwv, put_nodes_self] at hw ⊢
    exact single_tr F.i3 hlen (F.single hlen v) htr hw
  · rw [put_nodes_ne hwv] at hw ⊢
    exact F.single hlen w hw

theorem careful_step (h1 : FullSend s a) (h3 : OneRecord s a) (h4 : AckOfTerm s a) : Careful s a := by
  cases a <;> simp only [Careful]
  case deliver v k noop st nf fo =>
    intro m hk hr ht
    simp only [OneRecord, hk] at h3
    simp only [AckOfTerm, hk] at h4
    exact ⟨h4 hr ht, h3 hr ht⟩
  case send v beg cnt => exact h1

theorem FInv.run {c : Cfg} : ∀ (as : List (Nat × Act)) {ts ts' : TSys}, FInv c.mem ts.sys →
    trun c ts as = some ts' → AllT (OnRaft FullSend) c ts as → AllT (OnRaft OneRecord) c ts as →
    AllT (OnRaft AckOfTerm) c ts as → FInv c.mem ts'.sys
  | [], ts, ts', F, h, _, _, _ => by cases h; exact F
  | (t, a) :: as, ts, ts', F, h, h1, h2, h3 => by
    simp only [trun] at h
    rw [Option.bind_eq_some_iff] at h
    obtain ⟨ts1, hs, h⟩ := h
    simp only [AllT, hs] at h1 h2 h3
    obtain ⟨hnow, htr⟩ := tstep_tr hs
    refine FInv.run as ?_ h h1.2 h2.2 h3.2
    cases htr with
    | raft hg htr => exact F.put (careful_step h1.1 h2.1 h3.1) htr
    | send hv hl htr =>
      rename_i v beg cnt ps lag
      exact F.put (careful_step (a := .send v beg cnt) h1.1 h2.1 h3.1) htr
    | preVoteWon => exact F
    | elapse => exact F
    | shadow => exact F

end

theorem allT_append {P : Cfg → TSys → Nat → Act → Prop} {c : Cfg} : ∀ (as bs : List (Nat × Act)) {ts ts' : TSys},
    trun c ts as = some ts' → AllT P c ts as → AllT P c ts' bs → AllT P c ts (as ++ bs)
  | [], _, _, _, h, _, h2 => by cases h; exact h2
  | (t, a) :: as, bs, ts, ts', h, h1, h2 => by
    simp only [trun] at h
    rw [Option.bind_eq_some_iff] at h
    obtain ⟨ts1, hs, h⟩ := h
    simp only [AllT, List.cons_append, hs] at h1 ⊢
    exact ⟨h1.1, allT_append as bs h h1.2 h2⟩

theorem allT_split {P : Cfg → TSys → Nat → Act → Prop} {c : Cfg} : ∀ (as bs : List (Nat × Act)) {ts ts' : TSys},
    trun c ts as = some ts' → AllT P c ts (as ++ bs) → AllT P c ts as ∧ AllT P c ts' bs
  | [], _, _, _, h, h2 => by cases h; exact ⟨trivial, h2⟩
  | (t, a) :: as, bs, ts, ts', h, h2 => by
    simp only [trun] at h
    rw [Option.bind_eq_some_iff] at h
    obtain ⟨ts1, hs, h⟩ := h
    simp only [AllT, List.cons_append, hs] at h2 ⊢
    have := allT_split as bs h h2.2
    exact ⟨⟨h2.1, this.1⟩, this.2⟩

theorem accs_run {c : Cfg} : ∀ (as : List (Nat × Act)) {ts ts' : TSys}, trun c ts as = some ts' →
    (∀ r ∈ ts.accs, r ∈ ts'.accs) ∧ ts.now ≤ ts'.now
  | [], ts, ts', h => by cases h; exact ⟨fun _ h => h, Nat.le_refl _⟩
  | (t, a) :: as, ts, ts', h => by
    simp only [trun] at h
    rw [Option.bind_eq_some_iff] at h
    obtain ⟨ts1, hs, h⟩ := h
    obtain ⟨hnow, htr⟩ := tstep_tr hs
    have hi := accs_run as h
    have : (∀ r ∈ ts.accs, r ∈ ts1.accs) ∧ ts1.now = t := by
      cases htr with
      | raft hg htr => exact ⟨fun r hr => List.mem_append_left _ hr, rfl⟩
      | send hv hl htr => exact ⟨fun r hr => hr, rfl⟩
      | preVoteWon => exact ⟨fun r hr => hr, rfl⟩
      | elapse => exact ⟨fun r hr => hr, rfl⟩
      | shadow => exact ⟨fun r hr => hr, rfl⟩
    exact ⟨fun r hr => hi.1 r (this.1 r hr), by omega⟩

end Verif.Lease

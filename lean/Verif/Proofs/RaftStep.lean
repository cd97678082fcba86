import Verif.Proofs.RaftInv
/-
The handlers of the Raft model, case by case, and preservation of `Inv1` by every step.
-/
namespace Verif.Raft

/-- A step taken apart: the node it happens at, its new state and the messages sent. -/
inductive Tr (mem : List Nat) (s : Sys) : Action → Nat → Node → List Msg → Prop where
  | timeout {v noop n' ms} : v ∈ mem → (s.nodes v).role = .follower →
      beginElection mem v noop (s.nodes v) = some (n', ms) → Tr mem s (.timeout v noop) v n' ms
  | preVote {v} : v ∈ mem → (s.nodes v).role = .candidate →
      Tr mem s (.preVote v) v { s.nodes v with role := .follower } []
  | stepDown {v} : v ∈ mem → (s.nodes v).role = .leader →
      Tr mem s (.stepDown v) v (becomeFollower (s.nodes v) (s.nodes v).term 0 true) []
  | reqVote {v k noop st nf fo m} : v ∈ mem → s.msgs[k]? = some (.reqVote m) → m.src.1 ≠ v →
      Tr mem s (.deliver v k noop st nf fo) v (handleRequestVote v (s.nodes v) m st).1
        [.vote (handleRequestVote v (s.nodes v) m st).2]
  | vote {v k noop st nf fo m n'} : v ∈ mem → s.msgs[k]? = some (.vote m) → m.cand.1 = v →
      tallyVote mem v noop (s.nodes v) m nf = some n' → Tr mem s (.deliver v k noop st nf fo) v n' []
  | ae {v k noop st nf fo m} : v ∈ mem → s.msgs[k]? = some (.ae m) → m.src.1 ≠ v →
      Tr mem s (.deliver v k noop st nf fo) v (handleAppendEntries v (s.nodes v) m).1
        ((handleAppendEntries v (s.nodes v) m).2.toList.map .ack)
  | ack {v k noop st nf fo m} : v ∈ mem → s.msgs[k]? = some (.ack m) → m.leader.1 = v →
      Tr mem s (.deliver v k noop st nf fo) v (handleAck mem v (s.nodes v) m nf fo) []
  | client {v cmds} : v ∈ mem → (s.nodes v).role = .leader →
      Tr mem s (.client v cmds) v (replicateBatch mem (s.nodes v) cmds) []
  | send {v beg cnt} : v ∈ mem → (s.nodes v).role = .leader →
      (cnt = 0 ∨ (1 ≤ beg ∧ beg - 1 + cnt ≤ (s.nodes v).log.length)) →
      Tr mem s (.send v beg cnt) v (s.nodes v) [.ae (mkAE v (s.nodes v) beg cnt)]
  | join {v p} : v ∈ mem → p.1 ≠ v →
      Tr mem s (.join v p) v { s.nodes v with
        peers := ((s.nodes v).peers.filter fun x => x.1.1 ≠ p.1) ++ [(p, 0)] } []
  | leave {v p} : v ∈ mem →
      Tr mem s (.leave v p) v { s.nodes v with
        peers := (s.nodes v).peers.filter fun x => x.1 ≠ p } []
  | crash {v} : v ∈ mem → Tr mem s (.crash v) v (restart (s.nodes v)) []

theorem step_tr {mem : List Nat} {s s' : Sys} {a : Action} (h : step mem s a = some s') :
    ∃ v n' ms, Tr mem s a v n' ms ∧ s' = s.put mem v n' ms := by
  cases a with
  | timeout v noop =>
    simp only [step] at h
    split at h
    · rename_i hc
      rw [Option.map_eq_some_iff] at h
      obtain ⟨⟨n', ms⟩, h1, h2⟩ := h
      exact ⟨_, _, _, .timeout hc.1 hc.2 h1, h2.symm⟩
    · cases h
  | preVote v =>
    simp only [step] at h
    split at h
    · rename_i hc; cases h; exact ⟨_, _, _, .preVote hc.1 hc.2, rfl⟩
    · cases h
  | stepDown v =>
    simp only [step] at h
    split at h
    · rename_i hc; cases h; exact ⟨_, _, _, .stepDown hc.1 hc.2, rfl⟩
    · cases h
  | deliver v k noop st nf fo =>
    simp only [step] at h
    split at h
    · cases h
    · rename_i m hm
      split at h
      · rename_i hc
        rw [Option.map_eq_some_iff] at h
        obtain ⟨⟨n', ms⟩, h1, h2⟩ := h
        subst h2
        cases m with
        | reqVote m =>
          simp only [receive, Option.some.injEq, Prod.mk.injEq] at h1
          obtain ⟨rfl, rfl⟩ := h1
          exact ⟨_, _, _, .reqVote hc.1 hm (by simpa [Msg.toward] using hc.2), rfl⟩
        | vote m =>
          simp only [receive, Option.map_eq_some_iff, Prod.mk.injEq] at h1
          obtain ⟨n1, h1, rfl, rfl⟩ := h1
          exact ⟨_, _, _, .vote hc.1 hm (by simpa [Msg.toward] using hc.2) h1, rfl⟩
        | ae m =>
          simp only [receive, Option.some.injEq, Prod.mk.injEq] at h1
          obtain ⟨rfl, rfl⟩ := h1
          exact ⟨_, _, _, .ae hc.1 hm (by simpa [Msg.toward] using hc.2), rfl⟩
        | ack m =>
          simp only [receive, Option.some.injEq, Prod.mk.injEq] at h1
          obtain ⟨rfl, rfl⟩ := h1
          exact ⟨_, _, _, .ack hc.1 hm (by simpa [Msg.toward] using hc.2), rfl⟩
      · cases h
  | client v cmds =>
    simp only [step] at h
    split at h
    · rename_i hc; cases h; exact ⟨_, _, _, .client hc.1 hc.2, rfl⟩
    · cases h
  | send v beg cnt =>
    simp only [step] at h
    split at h
    · rename_i hc; cases h; exact ⟨_, _, _, .send hc.1 hc.2.1 hc.2.2, rfl⟩
    · cases h
  | join v p =>
    simp only [step] at h
    split at h
    · rename_i hc; cases h; exact ⟨_, _, _, .join hc.1 hc.2, rfl⟩
    · cases h
  | leave v p =>
    simp only [step] at h
    split at h
    · rename_i hc; cases h; exact ⟨_, _, _, .leave hc, rfl⟩
    · cases h
  | crash v =>
    simp only [step] at h
    split at h
    · rename_i hc; cases h; exact ⟨_, _, _, .crash hc, rfl⟩
    · cases h

/-- Terms, configuration version and their saved copies never go down, the process stays. -/
structure Up (n n' : Node) : Prop where
  inc : n'.inc = n.inc
  term : n.term ≤ n'.term
  mc : n.mcTerm ≤ n'.mcTerm
  saved : n.saved.term ≤ n.term → n.saved.mcTerm ≤ n.mcTerm →
    n.saved.term ≤ n'.saved.term ∧ n.saved.mcTerm ≤ n'.saved.mcTerm ∧
    n'.saved.term ≤ n'.term ∧ n'.saved.mcTerm ≤ n'.mcTerm

theorem Up.refl (n : Node) : Up n n :=
  ⟨rfl, Nat.le_refl _, Nat.le_refl _, fun h1 h2 => ⟨Nat.le_refl _, Nat.le_refl _, h1, h2⟩⟩

theorem Up.trans {a b c : Node} (h : Up a b) (h' : Up b c) : Up a c := by
  refine ⟨h'.inc.trans h.inc, Nat.le_trans h.term h'.term, Nat.le_trans h.mc h'.mc, fun h1 h2 => ?_⟩
  have h3 := h.saved h1 h2
  have h4 := h'.saved h3.2.2.1 h3.2.2.2
  exact ⟨by omega, by omega, h4.2.2⟩

theorem Up.trans' {a b c : Node} (h' : Up b c) (h : Up a b) : Up a c := h.trans h'

theorem Up.of_eq {a b : Node} (h1 : b.inc = a.inc) (h2 : b.term = a.term) (h3 : b.mcTerm = a.mcTerm)
    (h4 : b.saved.term = a.saved.term) (h5 : b.saved.mcTerm = a.saved.mcTerm) : Up a b :=
  ⟨h1, by omega, by omega, by omega⟩

theorem up_save (n : Node) : Up n (save n) :=
  ⟨rfl, Nat.le_refl _, Nat.le_refl _, fun h1 h2 => ⟨h1, h2, Nat.le_refl _, Nat.le_refl _⟩⟩

theorem commitWhatWeCan_eq (n : Node) : (commitWhatWeCan n).role = n.role ∧
    (commitWhatWeCan n).term = n.term ∧ (commitWhatWeCan n).log = n.log ∧
    (commitWhatWeCan n).inc = n.inc ∧ (commitWhatWeCan n).mcTerm = n.mcTerm ∧
    (commitWhatWeCan n).vote = n.vote ∧ (commitWhatWeCan n).yes = n.yes ∧
    (commitWhatWeCan n).peers = n.peers ∧ (commitWhatWeCan n).commit = n.commit := by
  unfold commitWhatWeCan save; split <;> simp

theorem up_commitWhatWeCan (n : Node) : Up n (commitWhatWeCan n) := by
  unfold commitWhatWeCan; split
  · exact (Up.of_eq (a := n) (b := { n with applied := n.commit }) rfl rfl rfl rfl rfl).trans (up_save _)
  · exact Up.refl n

theorem becomeFollower_eq {n : Node} {T mc : Nat} {sv : Bool} (h : n.term ≤ T) :
    (becomeFollower n T mc sv).role = .follower ∧ (becomeFollower n T mc sv).term = T ∧
    (becomeFollower n T mc sv).log = n.log ∧ (becomeFollower n T mc sv).inc = n.inc ∧
    n.mcTerm ≤ (becomeFollower n T mc sv).mcTerm ∧
    (becomeFollower n T mc sv).peers = n.peers ∧ (becomeFollower n T mc sv).commit = n.commit ∧
    (becomeFollower n T mc sv).applied = n.applied ∧
    (sv = false → (becomeFollower n T mc sv).saved = n.saved) ∧
    (sv = true → (becomeFollower n T mc sv).saved.term = T) := by
  unfold becomeFollower save
  by_cases h1 : n.term < T ∨ n.mcTerm < mc <;> cases sv <;> simp [h1] <;> omega

theorem up_becomeFollower {n : Node} {T mc : Nat} {sv : Bool} (h : n.term ≤ T) :
    Up n (becomeFollower n T mc sv) := by
  have h0 : Up n (becomeFollower n T mc false) := by
    have := becomeFollower_eq (mc := mc) (sv := false) h
    refine ⟨this.2.2.2.1, by rw [this.2.1]; exact h, this.2.2.2.2.1, fun h1 h2 => ?_⟩
    rw [this.2.2.2.2.2.2.2.2.1 rfl, this.2.1]
    exact ⟨Nat.le_refl _, Nat.le_refl _, by omega, Nat.le_trans h2 this.2.2.2.2.1⟩
  cases sv
  · exact h0
  · exact h0.trans (up_save _)

theorem follow_eq {n : Node} {m : AE} (h : n.term ≤ m.term) :
    (follow n m).role = .follower ∧ (follow n m).term = m.term ∧ (follow n m).log = n.log ∧
    (follow n m).peers = n.peers ∧ (follow n m).commit = n.commit ∧
    (follow n m).applied = n.applied ∧ Up n (follow n m) := by
  have key : ∀ n1 : Node, Up n n1 → n1.log = n.log → n1.peers = n.peers → n1.commit = n.commit →
      n1.applied = n.applied → n1.term = n.term →
      let r := if n1.term < m.term then becomeFollower n1 m.term m.mcTerm true
        else { n1 with role := .follower }
      r.role = .follower ∧ r.term = m.term ∧ r.log = n.log ∧ r.peers = n.peers ∧
        r.commit = n.commit ∧ r.applied = n.applied ∧ Up n r := by
    intro n1 hu hl hp hc ha ht
    dsimp only
    split
    · rename_i h1
      have e := becomeFollower_eq (n := n1) (mc := m.mcTerm) (sv := true) (Nat.le_of_lt h1)
      refine ⟨e.1, e.2.1, by rw [e.2.2.1, hl], by rw [e.2.2.2.2.2.1, hp], by rw [e.2.2.2.2.2.2.1, hc],
        by rw [e.2.2.2.2.2.2.2.1, ha], hu.trans (up_becomeFollower (Nat.le_of_lt h1))⟩
    · refine ⟨rfl, ?_, hl, hp, hc, ha, hu.trans (Up.of_eq rfl rfl rfl rfl rfl)⟩
      dsimp only; omega
  unfold follow
  dsimp only
  refine key _ ?_ ?_ ?_ ?_ ?_ ?_ <;> split <;> try rfl
  · rename_i h1
    refine Up.trans (b := { n with mcTerm := m.mcTerm }) ⟨rfl, Nat.le_refl _, Nat.le_of_lt h1, ?_⟩ (up_save _)
    intro h3 h4; dsimp only; omega
  · exact Up.refl n

/-- `handleAppendEntries`, case by case. -/
theorem handleAE_cases (me : Nat) (n : Node) (m : AE) :
    let ext := (terms n.log).isPrefixOf m.terms
    let lcp := commonPrefix m.terms (terms n.log)
    let c0 := max n.commit (min m.commit lcp)
    (m.term < 1 ∧ handleAppendEntries me n m = (n, none)) ∨
    (∃ n1 rej ns k, handleAppendEntries me n m =
        (commitWhatWeCan n1, some (mkAck me n1 m rej ns k)) ∧ 1 ≤ m.term ∧
      ((m.term < n.term ∧ n1 = { n with commit := c0 } ∧ rej = true ∧ k = lcp) ∨
       (n.term ≤ m.term ∧ n1 = follow { n with commit := c0 } m ∧ k = lcp ∧
          (rej = true ∨ lcp = m.terms.length ∨
            updateLog n.log m ext lcp = none ∧ (ext = false → m.prev ≤ lcp) ∧ m.entries ≠ [] ∧
              lcp ≠ m.terms.length)) ∨
       (n.term ≤ m.term ∧ rej = false ∧ ∃ log, updateLog n.log m ext lcp = some log ∧
          (ext = false → m.prev ≤ lcp) ∧ lcp ≠ m.terms.length ∧ k = lcpAfter log m ∧
          n1 = { follow { n with commit := c0 } m with
            log := log, commit := max c0 (min m.commit log.length) }))) := by
  dsimp only
  unfold handleAppendEntries
  dsimp only
  split
  · exact Or.inl ⟨by omega, rfl⟩
  · rename_i hm
    right
    split
    · rename_i h1; exact ⟨_, _, _, _, rfl, by omega, Or.inl ⟨h1, rfl, rfl, rfl⟩⟩
    · rename_i h1
      have hle : n.term ≤ m.term := Nat.not_lt.1 h1
      have e := follow_eq (n := { n with commit := max n.commit (min m.commit (commonPrefix m.terms (terms n.log))) }) hle
      split
      · rename_i h2
        exact ⟨_, _, _, _, rfl, by omega, Or.inr (Or.inl ⟨hle, rfl, rfl, Or.inr (Or.inl h2)⟩)⟩
      · rename_i h2
        split
        · exact ⟨_, _, _, _, rfl, by omega, Or.inr (Or.inl ⟨hle, rfl, rfl, Or.inl rfl⟩)⟩
        · split
          · exact ⟨_, _, _, _, rfl, by omega, Or.inr (Or.inl ⟨hle, rfl, rfl, Or.inl rfl⟩)⟩
          · rename_i hne
            split
            · exact ⟨_, _, _, _, rfl, by omega, Or.inr (Or.inl ⟨hle, rfl, rfl, Or.inl rfl⟩)⟩
            · rename_i h3
              have h3' : (terms n.log).isPrefixOf m.terms = false →
                  m.prev ≤ commonPrefix m.terms (terms n.log) := by
                intro hx
                rw [hx] at h3
                simp at h3
                omega
              rw [e.2.2.1]
              split
              · rename_i hu
                exact ⟨_, _, _, _, rfl, by omega, Or.inr (Or.inl ⟨hle, rfl, rfl, Or.inr (Or.inr ⟨hu, h3', hne, h2⟩)⟩)⟩
              · rename_i log hu
                refine ⟨_, _, _, _, rfl, by omega, Or.inr (Or.inr ⟨hle, rfl, log, hu, h3', h2, rfl, ?_⟩)⟩
                rw [e.2.2.2.2.1]

theorem up_handleAE (me : Nat) (n : Node) (m : AE) : Up n (handleAppendEntries me n m).1 := by
  rcases handleAE_cases me n m with ⟨_, h⟩ | ⟨n1, rej, ns, k, h, _, h2⟩
  · rw [h]; exact Up.refl n
  · rw [h]
    refine Up.trans ?_ (up_commitWhatWeCan n1)
    rcases h2 with ⟨_, rfl, _⟩ | ⟨hle, rfl, _⟩ | ⟨hle, _, log, _, _, _, _, rfl⟩
    · exact Up.of_eq rfl rfl rfl rfl rfl
    · exact Up.trans (Up.of_eq (b := { n with commit := max n.commit (min m.commit (commonPrefix m.terms (terms n.log))) }) rfl rfl rfl rfl rfl) (follow_eq (by exact hle)).2.2.2.2.2.2
    · exact Up.trans (Up.of_eq (b := { n with commit := max n.commit (min m.commit (commonPrefix m.terms (terms n.log))) }) rfl rfl rfl rfl rfl) (Up.trans (follow_eq (by exact hle)).2.2.2.2.2.2 (Up.of_eq rfl rfl rfl rfl rfl))

theorem becomeLeader_eq {mem : List Nat} {noop : Nat} {n n' : Node}
    (h : becomeLeader mem noop n = some n') :
    n.role ≠ .leader ∧ n'.role = .leader ∧ n'.inc = n.inc ∧ n'.mcTerm = n'.term ∧
    n'.saved.term = n'.term ∧ n'.saved.mcTerm = n'.term ∧ n.mcTerm < n'.term ∧ n.term ≤ n'.term ∧
    (mem.length ≠ 1 → n'.term = n.term) ∧ n'.log = n.log ++ [⟨n'.term, noop⟩] ∧ n'.yes = n.yes ∧
    n'.peers = n.peers ∧ (mem.length ≠ 1 → n'.commit = n.commit ∧ n'.applied = n.applied) ∧
    (mem.length = 1 → n'.commit = n'.log.length ∧
      (n'.applied = n'.commit ∨ n'.applied = n.applied)) ∧
    n'.saved.commit = n'.commit ∧ n'.saved.applied = n'.applied := by
  unfold becomeLeader at h
  split at h
  · cases h
  · rename_i h1
    split at h
    · cases h
    · rename_i h2
      split at h
      · cases h
      · rename_i h3
        dsimp only at h
        generalize ht : (if n.mcTerm = n.term then n.term + 1 else n.term) = t at h
        have hge : n.mcTerm < t ∧ n.term ≤ t ∧ (mem.length ≠ 1 → t = n.term) := by
          subst ht; split
          · exact ⟨by omega, by omega, fun hl => (h3 ⟨by assumption, hl⟩).elim⟩
          · exact ⟨by omega, by omega, fun _ => rfl⟩
        split at h
        · rename_i h4
          cases h
          unfold commitWhatWeCan save
          split <;> simp [h1, h4, hge]
        · rename_i h4
          cases h
          have := hge.2.2 h4
          simp [save, h1, h4, hge]
          omega

theorem up_becomeLeader {mem : List Nat} {noop : Nat} {n n' : Node}
    (h : becomeLeader mem noop n = some n') : Up n n' := by
  have e := becomeLeader_eq h
  refine ⟨e.2.2.1, e.2.2.2.2.2.2.2.1, by omega, fun h1 h2 => ?_⟩
  omega

theorem beginElection_eq {mem : List Nat} {me noop : Nat} {n n' : Node} {ms : List Msg}
    (hme : me ∈ mem) (hr : n.role = .follower) (h : beginElection mem me noop n = some (n', ms)) :
    (mem.length = 1 ∧ becomeLeader mem noop n = some n' ∧ ms = []) ∨
    (mem.length ≠ 1 ∧ n' = { n with role := .candidate, term := n.term + 1, vote := some (me, n.inc),
                                    yes := [me], no := [], peers := [] } ∧
      ms = [.reqVote ⟨(me, n.inc), n.term + 1, n.log.length, lastTerm n.log, n.mcTerm⟩]) := by
  unfold beginElection at h
  rw [if_neg (by simpa using hme)] at h
  split at h
  · rename_i h1
    rw [Option.map_eq_some_iff] at h
    obtain ⟨x, h2, h3⟩ := h
    cases h3
    exact Or.inl ⟨h1, h2, rfl⟩
  · rename_i h1
    simp only [Option.some.injEq, Prod.mk.injEq] at h
    exact Or.inr ⟨h1, h.1.symm, h.2.symm⟩

theorem decideVote_eq (n : Node) (m : ReqVote) :
    (decideVote n m).1.log = n.log ∧ (decideVote n m).1.role = n.role ∧
    (decideVote n m).1.term = n.term ∧ (decideVote n m).1.peers = n.peers ∧
    (decideVote n m).1.commit = n.commit ∧ (decideVote n m).1.applied = n.applied ∧
    (decideVote n m).1.yes = n.yes ∧
    (decideVote n m).1.saved.term = n.term ∧ Up n (decideVote n m).1 ∧
    ((decideVote n m).2 = true → logUpToDateAsOurs n m = true ∧ (decideVote n m).1.vote = some m.src) := by
  unfold decideVote
  split
  · refine ⟨rfl, rfl, rfl, rfl, rfl, rfl, rfl, rfl, ?_, ?_⟩
    · exact (Up.of_eq (a := n) (b := { n with vote := some m.src }) rfl rfl rfl rfl rfl).trans (up_save _)
    · intro _; exact ⟨by assumption, rfl⟩
  · exact ⟨rfl, rfl, rfl, rfl, rfl, rfl, rfl, rfl, up_save n, fun h => by cases h⟩

/-- `handleRequestVote`, case by case. -/
theorem handleRequestVote_eq (me : Nat) (n : Node) (m : ReqVote) (sticky : Bool) :
    let r := handleRequestVote me n m sticky
    r.2.src = (me, n.inc) ∧ r.2.cand = m.src ∧ r.2.srcTerm = n.term ∧ r.2.term = r.1.term ∧
    r.1.log = n.log ∧ r.1.peers = n.peers ∧ r.1.commit = n.commit ∧ r.1.applied = n.applied ∧
    Up n r.1 ∧
    ((r.1.role = n.role ∧ r.1.term = n.term ∧ r.1.yes = n.yes) ∨
      (r.1.role = .follower ∧ n.term < m.term ∧ r.1.term = m.term ∧ r.1.saved.term = m.term)) ∧
    (r.2.granted = true → m.term = r.1.term ∧ r.1.saved.term = r.1.term ∧
      (n.log = [] ∨ lastTerm n.log < m.lastTerm ∨
        lastTerm n.log = m.lastTerm ∧ n.log.length ≤ m.lastIdx)) := by
  have up : ∀ n1 : Node, n1.log = n.log → logUpToDateAsOurs n1 m = true →
      n.log = [] ∨ lastTerm n.log < m.lastTerm ∨
        lastTerm n.log = m.lastTerm ∧ n.log.length ≤ m.lastIdx := by
    intro n1 hl hu
    unfold logUpToDateAsOurs at hu
    rw [hl] at hu
    split at hu
    · cases hu
    · split at hu
      · cases hu
      · split at hu
        · left; exact List.length_eq_zero_iff.1 (by omega)
        · split at hu
          · right; left; assumption
          · split at hu
            · cases hu
            · right; right
              have := of_decide_eq_true hu
              omega
  dsimp only
  unfold handleRequestVote
  dsimp only
  split
  · exact ⟨rfl, rfl, rfl, rfl, rfl, rfl, rfl, rfl, Up.refl n, Or.inl ⟨rfl, rfl, rfl⟩, fun h => by cases h⟩
  · split
    · exact ⟨rfl, rfl, rfl, rfl, rfl, rfl, rfl, rfl, up_save n, Or.inl ⟨rfl, rfl, rfl⟩, fun h => by cases h⟩
    · split
      · rename_i h1 h2 h3
        have e := becomeFollower_eq (n := n) (mc := m.mcTerm) (sv := false) (Nat.le_of_lt h3)
        have d := decideVote_eq (becomeFollower n m.term m.mcTerm false) m
        refine ⟨rfl, rfl, rfl, rfl, ?_, ?_, ?_, ?_, ?_, Or.inr ⟨?_, h3, ?_, ?_⟩, fun hg => ⟨?_, ?_, ?_⟩⟩
        · rw [d.1, e.2.2.1]
        · rw [d.2.2.2.1, e.2.2.2.2.2.1]
        · rw [d.2.2.2.2.1, e.2.2.2.2.2.2.1]
        · rw [d.2.2.2.2.2.1, e.2.2.2.2.2.2.2.1]
        · exact (up_becomeFollower (Nat.le_of_lt h3)).trans d.2.2.2.2.2.2.2.2.1
        · rw [d.2.1, e.1]
        · rw [d.2.2.1, e.2.1]
        · rw [d.2.2.2.2.2.2.2.1, e.2.1]
        · rw [d.2.2.1, e.2.1]
        · rw [d.2.2.2.2.2.2.2.1, d.2.2.1]
        · exact up _ e.2.2.1 (d.2.2.2.2.2.2.2.2.2 hg).1
      · split
        · exact ⟨rfl, rfl, rfl, rfl, rfl, rfl, rfl, rfl, Up.refl n, Or.inl ⟨rfl, rfl, rfl⟩, fun h => by cases h⟩
        · rename_i h1 h2 h3 h4
          have d := decideVote_eq n m
          refine ⟨rfl, rfl, rfl, rfl, d.1, d.2.2.2.1, d.2.2.2.2.1, d.2.2.2.2.2.1, d.2.2.2.2.2.2.2.2.1,
            Or.inl ⟨d.2.1, d.2.2.1, d.2.2.2.2.2.2.1⟩, fun hg => ⟨?_, ?_, ?_⟩⟩
          · rw [d.2.2.1]; omega
          · rw [d.2.2.2.2.2.2.2.1, d.2.2.1]
          · exact up _ rfl (d.2.2.2.2.2.2.2.2.2 hg).1

/-- `tallyVote`, case by case: nothing, step down, one more vote, or victory. -/
theorem tallyVote_cases {mem : List Nat} {me noop : Nat} {n n' : Node} {m : Vote} {nf : Bool}
    (h : tallyVote mem me noop n m nf = some n') :
    n' = n ∨
    (∃ T mc sv, n.term ≤ T ∧ ∃ n1 : Node, n' = becomeFollower n1 T mc sv ∧
      (n1 = n ∧ T = m.term ∧ mc = m.mcTerm ∧ sv = true ∨
        n1 = countVote me n m ∧ T = n1.term ∧ mc = 0 ∧ sv = false)) ∨
    (n.role = .candidate ∧ n.term = m.term ∧ (m.granted = true → m.srcTerm < n.term ∧ m.src.1 ∈ mem) ∧
      (n' = countVote me n m ∨
        (becomeLeader mem noop (countVote me n m) = some n' ∧
          quorum mem nf ≤ (countVote me n m).yes.length))) := by
  unfold tallyVote at h
  split at h
  · cases h; exact Or.inl rfl
  · split at h
    · cases h; right; left; exact ⟨_, _, _, by omega, n, rfl, Or.inl ⟨rfl, rfl, rfl, rfl⟩⟩
    · split at h
      · cases h; exact Or.inl rfl
      · rename_i hr
        split at h
        · cases h; exact Or.inl rfl
        · split at h
          · cases h; exact Or.inl rfl
          · split at h
            · cases h; exact Or.inl rfl
            · rename_i h1 h2 h3 h4 h5
              have hcand : n.role = .candidate := by
                cases hx : n.role <;> simp [hx] at hr ⊢
              have hg : m.granted = true → m.srcTerm < n.term ∧ m.src.1 ∈ mem := by
                intro hg
                refine ⟨Nat.not_le.1 fun hle => h5 ⟨hle, hg⟩, ?_⟩
                exact Classical.byContradiction fun hx => h3 hx
              dsimp only at h
              have hterm : (countVote me n m).term = n.term := by
                unfold countVote; split
                · split <;> rfl
                · rfl
              split at h
              · exact Or.inr (Or.inr ⟨hcand, by omega, hg, Or.inr ⟨h, by assumption⟩⟩)
              · split at h
                · cases h
                  exact Or.inr (Or.inl ⟨_, _, _, by omega, _, rfl, Or.inr ⟨rfl, rfl, rfl, rfl⟩⟩)
                · cases h
                  exact Or.inr (Or.inr ⟨hcand, by omega, hg, Or.inl rfl⟩)

theorem countVote_eq (me : Nat) (n : Node) (m : Vote) :
    (countVote me n m).role = n.role ∧ (countVote me n m).term = n.term ∧
    (countVote me n m).log = n.log ∧ (countVote me n m).inc = n.inc ∧
    (countVote me n m).mcTerm = n.mcTerm ∧ (countVote me n m).saved = n.saved ∧
    (countVote me n m).peers = n.peers ∧ (countVote me n m).commit = n.commit ∧
    (countVote me n m).applied = n.applied ∧
    ((countVote me n m).yes = n.yes ∨ (m.cand = (me, n.inc) ∧ m.src.1 ∉ n.yes ∧ m.granted = true ∧
      (countVote me n m).yes = n.yes ++ [m.src.1])) := by
  unfold countVote
  split
  · rename_i h
    split <;> simp_all
  · simp

theorem leaderAdvance_cases (mem : List Nat) (n : Node) (nf : Bool) :
    leaderAdvanceCommitIndex mem n nf = n ∨
    ∃ i, (sortDesc (matchIndexes mem n))[quorum mem nf - 1]? = some i ∧ 0 < i ∧ n.commit < i ∧
      i ≤ n.log.length ∧ termAt n.log i = n.term ∧
      leaderAdvanceCommitIndex mem n nf = commitWhatWeCan { n with commit := i } := by
  unfold leaderAdvanceCommitIndex
  split
  · exact Or.inl rfl
  · split
    · exact Or.inl rfl
    · rename_i i hi h
      right
      refine ⟨i, hi, by omega, by omega, by omega, ?_, rfl⟩
      exact Classical.byContradiction fun hx => h (Or.inr (Or.inr (Or.inr hx)))

/-- `handleAck`, case by case. -/
theorem handleAck_cases (mem : List Nat) (me : Nat) (n : Node) (m : Ack) (nf fo : Bool) :
    (∃ mc, n.term < m.term ∧ handleAck mem me n m nf fo = becomeFollower n m.term mc true ∧ mc = m.mcTerm) ∨
    handleAck mem me n m nf fo = n ∨
    (n.role = .leader ∧ m.term = n.term ∧ ∃ x, (x = matchOf n.peers m.src ∨
        (m.rejected = true ∧ x = m.lcp) ∨ (m.rejected = false ∧ x = m.lastIdx)) ∧
      (handleAck mem me n m nf fo = { n with peers := setMatch n.peers m.src x } ∨
        handleAck mem me n m nf fo =
          leaderAdvanceCommitIndex mem { n with peers := setMatch n.peers m.src x } nf)) := by
  unfold handleAck
  split
  · exact Or.inl ⟨_, by assumption, rfl, rfl⟩
  · split
    · exact Or.inr (Or.inl rfl)
    · split
      · exact Or.inr (Or.inl rfl)
      · split
        · exact Or.inr (Or.inl rfl)
        · rename_i h1 h2 h3 h4
          right; right
          refine ⟨Classical.not_not.1 h3, by omega, ?_⟩
          dsimp only
          split
          · rename_i hr
            split
            · exact ⟨_, Or.inl rfl, Or.inl rfl⟩
            · split
              · exact ⟨_, Or.inr (Or.inl ⟨hr, rfl⟩), Or.inr rfl⟩
              · exact ⟨_, Or.inl rfl, Or.inl rfl⟩
          · rename_i hr
            split
            · exact ⟨_, Or.inr (Or.inr ⟨eq_false_of_ne_true hr, rfl⟩), Or.inr rfl⟩
            · split
              · exact ⟨_, Or.inl rfl, Or.inr rfl⟩
              · exact ⟨_, Or.inl rfl, Or.inl rfl⟩

theorem leaderAdvance_eq (mem : List Nat) (n : Node) (nf : Bool) :
    (leaderAdvanceCommitIndex mem n nf).role = n.role ∧
    (leaderAdvanceCommitIndex mem n nf).term = n.term ∧
    (leaderAdvanceCommitIndex mem n nf).log = n.log ∧
    (leaderAdvanceCommitIndex mem n nf).peers = n.peers ∧
    (leaderAdvanceCommitIndex mem n nf).yes = n.yes ∧ Up n (leaderAdvanceCommitIndex mem n nf) := by
  rcases leaderAdvance_cases mem n nf with h | ⟨i, _, _, _, _, _, h⟩ <;> rw [h]
  · exact ⟨rfl, rfl, rfl, rfl, rfl, Up.refl n⟩
  · have e := commitWhatWeCan_eq { n with commit := i }
    refine ⟨e.1, e.2.1, e.2.2.1, e.2.2.2.2.2.2.2.1, e.2.2.2.2.2.2.1, ?_⟩
    exact Up.trans (Up.of_eq (b := { n with commit := i }) rfl rfl rfl rfl rfl) (up_commitWhatWeCan _)

end Verif.Raft

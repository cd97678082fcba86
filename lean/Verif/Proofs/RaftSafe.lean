import Verif.Proofs.RaftGood1
/-
Leader completeness: the invariant that links acknowledgements, votes and later leaders.
-/
namespace Verif.Raft

/-- The position an acknowledgement reports. -/
def ackPos (m : Ack) : Nat := if m.rejected then m.lcp else m.lastIdx

/-- Node `v` has acknowledged the leader of term `t` up to index `i`, or is that leader. -/
def Acked (s : Sys) (v t i : Nat) : Prop :=
  (∃ m, Msg.ack m ∈ s.msgs ∧ m.src.1 = v ∧ m.term = t ∧ m.aeTerm = t ∧ i ≤ ackPos m) ∨
  (∃ c Q, (t, c, Q) ∈ s.hist.elected ∧ c.1 = v ∧ i ≤ (s.hist.lead t).length)

/-- Index `i` of the log of the leader of term `t` holds an entry of term `t`. -/
def At (s : Sys) (t i : Nat) : Prop :=
  1 ≤ i ∧ i ≤ (s.hist.lead t).length ∧ termAt (s.hist.lead t) i = t

/-- No majority can ever acknowledge index `i` in term `t`. -/
def Dead (mem : List Nat) (s : Sys) (t i : Nat) : Prop :=
  ∀ Q, Quor mem Q → ∃ u ∈ Q, t < (s.nodes u).saved.term ∧ ¬ Acked s u t i

structure Inv2 (mem : List Nat) (s : Sys) : Prop where
  logTerm : ∀ v, ∀ e ∈ (s.nodes v).log, e.term ≤ (s.nodes v).saved.term
  logMono : ∀ v, Mono (s.nodes v).log
  leadMono : ∀ T, Mono (s.hist.lead T)
  ackInv : ∀ m, Msg.ack m ∈ s.msgs → m.term = m.aeTerm → Elected s.hist m.term ∧
    m.term ≤ (s.nodes m.src.1).saved.term ∧ ackPos m ≤ (s.hist.lead m.term).length
  aeLast : ∀ m, Msg.ae m ∈ s.msgs → At s m.term m.terms.length
  aeFull : ∀ m, Msg.ae m ∈ s.msgs → m.entries = [] ∨ m.prev + m.entries.length = m.terms.length
  reqInc : ∀ r, Msg.reqVote r ∈ s.msgs → r.src.2 < (s.nodes r.src.1).inc ∨
    (r.src.2 = (s.nodes r.src.1).inc ∧ r.term ≤ (s.nodes r.src.1).term)
  voteInc : ∀ m, Msg.vote m ∈ s.msgs → Counted m → m.cand.2 < (s.nodes m.cand.1).inc ∨
    (m.cand.2 = (s.nodes m.cand.1).inc ∧ m.term ≤ (s.nodes m.cand.1).term)
  reqLog : ∀ r, Msg.reqVote r ∈ s.msgs → (s.nodes r.src.1).role = .candidate →
    (s.nodes r.src.1).inc = r.src.2 → (s.nodes r.src.1).term = r.term →
    r.lastIdx = (s.nodes r.src.1).log.length ∧ r.lastTerm = lastTerm (s.nodes r.src.1).log
  A : ∀ t t' i, Elected s.hist t' → t < t' → At s t i →
    (s.hist.lead t).take i <+: s.hist.lead t' ∨ Dead mem s t i
  B : ∀ u t i, Acked s u t i → At s t i → (s.hist.lead t).take i <+: (s.nodes u).log ∨ Dead mem s t i
  C : ∀ m t i, Msg.vote m ∈ s.msgs → Counted m → (s.nodes m.cand.1).role = .candidate →
    (s.nodes m.cand.1).inc = m.cand.2 → (s.nodes m.cand.1).term = m.term → t < m.term →
    Acked s m.src.1 t i → At s t i →
    (s.hist.lead t).take i <+: (s.nodes m.cand.1).log ∨ Dead mem s t i

/-- What a step has to satisfy for `Inv2`, beyond `Good1`. -/
structure Good2 (mem : List Nat) (s : Sys) (v : Nat) (n' : Node) (ms : List Msg) : Prop where
  inc : (s.nodes v).inc < n'.inc ∨ (s.nodes v).inc = n'.inc ∧ (s.nodes v).term ≤ n'.term
  logTerm : ∀ e ∈ n'.log, e.term ≤ n'.saved.term
  logMono : Mono n'.log
  cand : n'.role = .candidate → n'.log = (s.nodes v).log
  keep : ∀ t i, Acked s v t i → At s t i → (s.hist.lead t).take i <+: (s.nodes v).log →
    (s.hist.lead t).take i <+: n'.log ∨ Dead mem s t i
  ack : ∀ m, Msg.ack m ∈ ms → m.src.1 = v ∧ (m.term = m.aeTerm → Elected s.hist m.term ∧
    m.term = n'.term ∧ m.term ≤ n'.saved.term ∧ ackPos m ≤ (s.hist.lead m.term).length ∧
    (s.hist.lead m.term).take (ackPos m) <+: n'.log)
  ae : ∀ m, Msg.ae m ∈ ms → At s m.term m.terms.length ∧
    (m.entries = [] ∨ m.prev + m.entries.length = m.terms.length)
  req : ∀ r, Msg.reqVote r ∈ ms → r.src = (v, n'.inc) ∧ r.term = n'.term ∧
    r.lastIdx = n'.log.length ∧ r.lastTerm = lastTerm n'.log
  vote : ∀ m, Msg.vote m ∈ ms → Counted m → ∃ r, Msg.reqVote r ∈ s.msgs ∧ m.src.1 = v ∧
    m.cand = r.src ∧ m.term = r.term ∧ r.src.1 ≠ v ∧
    ((s.nodes v).log = [] ∨ lastTerm (s.nodes v).log < r.lastTerm ∨
      lastTerm (s.nodes v).log = r.lastTerm ∧ (s.nodes v).log.length ≤ r.lastIdx)

section
variable {mem : List Nat} {s : Sys} {v : Nat} {n' : Node} {ms : List Msg}

theorem node_put (u : Nat) : (u = v ∧ (s.put mem v n' ms).nodes u = n') ∨
    (u ≠ v ∧ (s.put mem v n' ms).nodes u = s.nodes u) := by
  by_cases h : u = v
  · subst h; exact Or.inl ⟨rfl, put_nodes_self⟩
  · exact Or.inr ⟨h, put_nodes_ne h⟩

theorem saved_mono (G : Good1 mem s v n' ms) (u : Nat) :
    (s.nodes u).saved.term ≤ ((s.put mem v n' ms).nodes u).saved.term := by
  rcases node_put (mem := mem) (s := s) (v := v) (n' := n') (ms := ms) u with ⟨rfl, h⟩ | ⟨_, h⟩ <;> rw [h]
  · exact G.st
  · exact Nat.le_refl _

/-- A process keeps its term or is replaced by a later one. -/
theorem inc_mono (G : Good2 mem s v n' ms) (u : Nat) :
    (s.nodes u).inc < ((s.put mem v n' ms).nodes u).inc ∨
    (s.nodes u).inc = ((s.put mem v n' ms).nodes u).inc ∧
      (s.nodes u).term ≤ ((s.put mem v n' ms).nodes u).term := by
  rcases node_put (mem := mem) (s := s) (v := v) (n' := n') (ms := ms) u with ⟨rfl, h⟩ | ⟨_, h⟩ <;> rw [h]
  · exact G.inc
  · exact Or.inr ⟨rfl, Nat.le_refl _⟩

theorem acked_mono (I : Inv1 mem s) (G : Good1 mem s v n' ms) {u t i : Nat} (h : Acked s u t i) :
    Acked (s.put mem v n' ms) u t i := by
  rcases h with ⟨m, h1, h2⟩ | ⟨c, Q, h1, h2, h3⟩
  · exact Or.inl ⟨m, mem_put_msgs.2 (Or.inl h1), h2⟩
  · exact Or.inr ⟨c, Q, put_elected_sub h1, h2, Nat.le_trans h3 (lead_prefix I G t).length_le⟩

theorem Acked.le (I2 : Inv2 mem s) {u t i : Nat} (h : Acked s u t i) :
    i ≤ (s.hist.lead t).length := by
  rcases h with ⟨m, h1, _, h3, h4, h5⟩ | ⟨c, Q, _, _, h3⟩
  · have := (I2.ackInv m h1 (by omega)).2.2
    rw [h3] at this; omega
  · exact h3

theorem Acked.term (I : Inv1 mem s) (I2 : Inv2 mem s) {u t i : Nat} (h : Acked s u t i) :
    t ≤ (s.nodes u).saved.term := by
  rcases h with ⟨m, h1, h2, h3, h4, h5⟩ | ⟨c, Q, h1, h2, h3⟩
  · have := (I2.ackInv m h1 (by omega)).2.1
    rw [h2] at this; omega
  · have h4 := (I.elSaved _ _ _ h1).1
    rw [h2] at h4; omega

theorem Acked.elected (I2 : Inv2 mem s) {u t i : Nat} (h : Acked s u t i) : Elected s.hist t := by
  rcases h with ⟨m, h1, h2, h3, h4, h5⟩ | ⟨c, Q, h1, h2, h3⟩
  · have := (I2.ackInv m h1 (by omega)).1
    rwa [h3] at this
  · exact ⟨c, Q, h1⟩

/-- Where an acknowledgement in the new state comes from. -/
theorem acked_new (I : Inv1 mem s) (G : Good1 mem s v n' ms) (G2 : Good2 mem s v n' ms) {u t i : Nat}
    (h : Acked (s.put mem v n' ms) u t i) :
    Acked s u t i ∨ (u = v ∧ n'.term = t ∧
      ((Elected s.hist t ∧ i ≤ (s.hist.lead t).length ∧ (s.hist.lead t).take i <+: n'.log) ∨
       (n'.role = .leader ∧ i ≤ n'.log.length))) := by
  rcases h with ⟨m, h1, h2, h3, h4, h5⟩ | ⟨c, Q, h1, h2, h3⟩
  · rcases mem_put_msgs.1 h1 with h | h
    · exact Or.inl (Or.inl ⟨m, h, h2, h3, h4, h5⟩)
    · right
      obtain ⟨e1, e2⟩ := G2.ack m h
      obtain ⟨e3, e4, _, e5, e6⟩ := e2 (by omega)
      rw [h3] at e3 e4 e5 e6
      refine ⟨by omega, by omega, Or.inl ⟨e3, by omega, ?_⟩⟩
      have : (s.hist.lead t).take i = ((s.hist.lead t).take (ackPos m)).take i := by
        rw [List.take_take]; congr 1; omega
      rw [this]
      exact (List.take_prefix _ _).trans e6
  · by_cases hl : n'.role = .leader ∧ t = n'.term
    · obtain ⟨hl, rfl⟩ := hl
      obtain ⟨Q', hQ'⟩ := elected_self I G hl
      have := (I.put G).elUniq _ _ _ _ _ h1 hQ'
      rw [this] at h2
      refine Or.inr ⟨h2.symm, rfl, Or.inr ⟨hl, ?_⟩⟩
      rwa [put_lead_self hl] at h3
    · have hne : n'.role = .leader → t ≠ n'.term := fun h1 h2 => hl ⟨h1, h2⟩
      rw [put_lead_ne hne] at h3
      rcases mem_put_elected.1 h1 with h | ⟨e1, e2, e3⟩
      · exact Or.inl (Or.inr ⟨c, Q, h, h2, h3⟩)
      · exact (hne e1 (Prod.mk.inj e3).1).elim

theorem dead_mono (I : Inv1 mem s) (G : Good1 mem s v n' ms) (G2 : Good2 mem s v n' ms) {t i : Nat}
    (h : Dead mem s t i) : Dead mem (s.put mem v n' ms) t i := by
  intro Q hQ
  obtain ⟨u, hu, h1, h2⟩ := h Q hQ
  refine ⟨u, hu, Nat.lt_of_lt_of_le h1 (saved_mono G u), fun hx => ?_⟩
  rcases acked_new I G G2 hx with h3 | ⟨rfl, h4, _⟩
  · exact h2 h3
  · have := G.st; have := G.st'; omega

theorem at_new (I : Inv1 mem s) (G : Good1 mem s v n' ms) {t i : Nat} (h : At (s.put mem v n' ms) t i) :
    At s t i ∨ (n'.role = .leader ∧ t = n'.term ∧ (s.hist.lead t).length < i ∧ i ≤ n'.log.length) := by
  obtain ⟨h1, h2, h3⟩ := h
  by_cases hi : i ≤ (s.hist.lead t).length
  · left
    refine ⟨h1, hi, ?_⟩
    rw [termAt_prefix (lead_prefix I G t) hi] at h3; exact h3
  · right
    by_cases hl : n'.role = .leader ∧ t = n'.term
    · obtain ⟨hl, rfl⟩ := hl
      rw [put_lead_self hl] at h2
      exact ⟨hl, rfl, by omega, h2⟩
    · rw [put_lead_ne fun h1 h2 => hl ⟨h1, h2⟩] at h2
      omega

theorem at_put (I : Inv1 mem s) (G : Good1 mem s v n' ms) {t i : Nat} (h : At s t i) :
    At (s.put mem v n' ms) t i :=
  ⟨h.1, Nat.le_trans h.2.1 (lead_prefix I G t).length_le,
    by rw [termAt_prefix (lead_prefix I G t) h.2.1]; exact h.2.2⟩

theorem take_put (I : Inv1 mem s) (G : Good1 mem s v n' ms) {t i : Nat} (h : i ≤ (s.hist.lead t).length) :
    ((s.put mem v n' ms).hist.lead t).take i = (s.hist.lead t).take i :=
  take_prefix_of_prefix (lead_prefix I G t) h

/-- Voters of an election have reached its term. -/
theorem voter_term (I : Inv1 mem s) {T c Q u} (h : (T, c, Q) ∈ s.hist.elected) (hu : u ∈ Q) :
    T ≤ (s.nodes u).saved.term := by
  by_cases huc : u = c.1
  · have h4 := (I.elSaved _ _ _ h).1
    rw [huc]; omega
  · obtain ⟨m, hm, hc, h1, h2, h3⟩ := (I.elQ _ _ _ h).2.2.2.2 u hu huc
    have h4 := I.voteSaved m hm hc
    rw [h1] at h4; omega

theorem lastTerm_mono {L : List Entry} (h : Mono L) {i : Nat} (h1 : 1 ≤ i) (h2 : i ≤ L.length) :
    termAt L i ≤ lastTerm L := h.termAt_le h1 h2 (Nat.le_refl _)

/-- A log ending in term `t` is a prefix of the log of the leader of `t`. -/
theorem LogOK.whole {h : Hist} {L : List Entry} (hL : LogOK h L) (hne : 0 < L.length) :
    Elected h (lastTerm L) ∧ L <+: h.lead (lastTerm L) := by
  have := hL (L.length - 1) (by omega)
  have e : lastTerm L = L[L.length - 1].term := (termAt_eq (by omega) (Nat.le_refl _)).2 rfl
  rw [← e, show L.length - 1 + 1 = L.length by omega, List.take_length] at this
  exact this

/-- The voter's acknowledged entries are in the log of a candidate that is not behind. -/
theorem uptodate (I : Inv1 mem s) (I2 : Inv2 mem s) {u a t i : Nat} (hAt : At s t i)
    (hX : (s.hist.lead t).take i <+: (s.nodes u).log)
    (hup : (s.nodes u).log = [] ∨ lastTerm (s.nodes u).log < lastTerm (s.nodes a).log ∨
      lastTerm (s.nodes u).log = lastTerm (s.nodes a).log ∧
        (s.nodes u).log.length ≤ (s.nodes a).log.length) :
    (s.hist.lead t).take i <+: (s.nodes a).log ∨ Dead mem s t i := by
  obtain ⟨h1, h2, h3⟩ := hAt
  have hXl : ((s.hist.lead t).take i).length = i := by simp; omega
  have hlen := hX.length_le
  rw [hXl] at hlen
  have hterm0 : termAt ((s.hist.lead t).take i) i = termAt (s.hist.lead t) i :=
    (termAt_prefix (List.take_prefix i (s.hist.lead t)) (by omega)).symm
  have hterm : termAt (s.nodes u).log i = t := by
    rw [termAt_prefix hX (by omega), hterm0, h3]
  have hlast := lastTerm_mono (I2.logMono u) h1 hlen
  rw [hterm] at hlast
  have hne : 0 < (s.nodes a).log.length := by
    rcases hup with h | h | h
    · rw [h] at hlen; simp at hlen; omega
    · refine Nat.pos_of_ne_zero fun h0 => ?_
      have : lastTerm (s.nodes a).log = 0 := by unfold lastTerm; rw [h0]; rfl
      omega
    · omega
  obtain ⟨he, hw⟩ := (I.logOK a).whole hne
  have hle : t ≤ lastTerm (s.nodes a).log := by
    rcases hup with h | h | h
    · rw [h] at hlen; simp at hlen; omega
    · omega
    · omega
  rcases Nat.eq_or_lt_of_le hle with heq | hlt
  · left
    rcases hup with h | h | h
    · rw [h] at hlen; simp at hlen; omega
    · -- the voter's own last term would be below t
      omega
    · rw [← heq] at hw
      exact prefix_of_prefix_le (List.take_prefix _ _) hw (by omega)
  · rcases I2.A t _ i he hlt ⟨h1, h2, h3⟩ with hA | hA
    · left
      have hla := hA.length_le
      rw [hXl] at hla
      refine prefix_of_prefix_le hA hw ?_
      rw [hXl]
      refine Nat.le_of_not_lt fun hgt => ?_
      have e1 : termAt (s.hist.lead (lastTerm (s.nodes a).log)) (s.nodes a).log.length
          = lastTerm (s.nodes a).log := termAt_prefix hw (Nat.le_refl _)
      have e2 : termAt (s.hist.lead (lastTerm (s.nodes a).log)) i = t := by
        rw [termAt_prefix hA (by omega), hterm0, h3]
      have := (I2.leadMono (lastTerm (s.nodes a).log)).termAt_le hne (Nat.le_of_lt hgt) hla
      omega
    · exact Or.inr hA

theorem Inv2.put (I : Inv1 mem s) (I2 : Inv2 mem s) (G : Good1 mem s v n' ms)
    (G2 : Good2 mem s v n' ms) : Inv2 mem (s.put mem v n' ms) := by
  have I' := I.put G
  have node := fun u => node_put (mem := mem) (s := s) (v := v) (n' := n') (ms := ms) u
  constructor
  case logTerm =>
    intro u; rcases node u with ⟨rfl, h⟩ | ⟨_, h⟩ <;> rw [h]
    · exact G2.logTerm
    · exact I2.logTerm u
  case logMono =>
    intro u; rcases node u with ⟨rfl, h⟩ | ⟨_, h⟩ <;> rw [h]
    · exact G2.logMono
    · exact I2.logMono u
  case leadMono =>
    intro T
    by_cases hl : n'.role = .leader ∧ T = n'.term
    · obtain ⟨hl, rfl⟩ := hl; rw [put_lead_self hl]; exact G2.logMono
    · rw [put_lead_ne fun h1 h2 => hl ⟨h1, h2⟩]; exact I2.leadMono T
  case ackInv =>
    intro m hm ht
    rcases mem_put_msgs.1 hm with h | h
    · obtain ⟨h1, h2, h3⟩ := I2.ackInv m h ht
      exact ⟨h1.put, Nat.le_trans h2 (saved_mono G _), Nat.le_trans h3 (lead_prefix I G _).length_le⟩
    · obtain ⟨h1, h2⟩ := G2.ack m h
      obtain ⟨h3, _, h4, h5, _⟩ := h2 ht
      refine ⟨h3.put, ?_, Nat.le_trans h5 (lead_prefix I G _).length_le⟩
      rw [h1, put_nodes_self]; exact h4
  case aeLast =>
    intro m hm
    rcases mem_put_msgs.1 hm with h | h
    · exact at_put I G (I2.aeLast m h)
    · exact at_put I G (G2.ae m h).1
  case aeFull =>
    intro m hm
    rcases mem_put_msgs.1 hm with h | h
    · exact I2.aeFull m h
    · exact (G2.ae m h).2
  case reqInc =>
    intro r hr
    rcases mem_put_msgs.1 hr with h | h
    · have h1 := inc_mono G2 r.src.1
      rcases I2.reqInc r h with h3 | h3 <;> omega
    · obtain ⟨h1, h2, _⟩ := G2.req r h
      right
      rw [h1]; dsimp only; rw [put_nodes_self, h2]; exact ⟨rfl, Nat.le_refl _⟩
  case voteInc =>
    intro m hm hc
    have h1 := inc_mono G2 m.cand.1
    rcases mem_put_msgs.1 hm with h | h
    · rcases I2.voteInc m h hc with h3 | h3 <;> omega
    · obtain ⟨r, hr, _, e1, e2, _⟩ := G2.vote m h hc
      have := I2.reqInc r hr
      rw [← e1, ← e2] at this
      omega
  case reqLog =>
    intro r hr hrole hinc hterm
    rcases mem_put_msgs.1 hr with h | h
    · rcases node r.src.1 with ⟨e, hn⟩ | ⟨hne, hn⟩ <;> rw [hn] at hrole hinc hterm ⊢
      · have hi := G.inc (by rw [hrole]; decide)
        rcases (G.cand hrole).2 with ⟨h1, h2⟩ | h1
        · have h3 := G2.cand hrole
          have := I2.reqLog r h
          rw [e] at this
          rw [h3]
          exact this h1 (by omega) (by omega)
        · have := I2.reqInc r h
          rw [e] at this
          omega
      · exact I2.reqLog r h hrole hinc hterm
    · obtain ⟨h1, h2, h3, h4⟩ := G2.req r h
      rw [h1]; dsimp only; rw [put_nodes_self]; exact ⟨h3, h4⟩
  case A =>
    intro t t' i he hlt hAt
    -- an election of a later term kills what its voters never acknowledged
    have kill : ∀ c Q, (t', c, Q) ∈ (s.put mem v n' ms).hist.elected →
        (∀ u ∈ Q, ¬ Acked s u t i) → Dead mem (s.put mem v n' ms) t i := by
      intro c Q hc hno P hP
      obtain ⟨u, hu1, hu2⟩ := hP.inter (I'.elQ _ _ _ hc).1
      have hge := voter_term I' hc hu2
      refine ⟨u, hu1, by omega, fun hx => ?_⟩
      rcases acked_new I G G2 hx with h | ⟨rfl, h, _⟩
      · exact hno u hu2 h
      · rw [put_nodes_self] at hge; have := G.st'; omega
    rcases at_new I G hAt with hold | ⟨hl, rfl, hi, _⟩
    · rw [take_put I G hold.2.1]
      obtain ⟨c, Q, hc⟩ := he
      rcases mem_put_elected.1 hc with h | ⟨e1, e2, e3⟩
      · rcases I2.A t t' i ⟨c, Q, h⟩ hlt hold with h1 | h1
        · exact Or.inl (h1.trans (lead_prefix I G t'))
        · exact Or.inr (dead_mono I G G2 h1)
      · simp only [Prod.mk.injEq] at e3
        obtain ⟨rfl, rfl, hQ⟩ := e3
        have hlead : (s.nodes v).log <+: (s.put mem v n' ms).hist.lead n'.term := by
          rw [put_lead_self e1]
          rcases G.lead e1 with h | ⟨_, _, _, _, _, _, _, _, x, hx⟩
          · exact (e2 h.1).elim
          · rw [hx]; exact List.prefix_append _ _
        by_cases hex : ∃ u ∈ Q, Acked s u t i
        · obtain ⟨u, hu, ha⟩ := hex
          have goal : (s.hist.lead t).take i <+: (s.nodes v).log ∨ Dead mem s t i := by
            by_cases huv : u = v
            · subst huv; exact I2.B u t i ha hold
            · rcases G.lead e1 with h | ⟨_, _, _, _, _, _, hb, hcand, _⟩
              · exact (e2 h.1).elim
              · rw [← hQ] at hb
                obtain ⟨m, hm, hcm, hs, hcd, ht⟩ := hb.2.2.2 u hu huv
                have hlen : mem.length ≠ 1 := by
                  intro h1
                  rw [hQ, if_pos h1, List.mem_singleton] at hu
                  exact huv hu
                obtain ⟨k1, k2⟩ := hcand hlen
                have hin := G.inc (by rw [e1]; decide)
                have := I2.C m t i hm hcm
                rw [hcd, hs] at this
                exact this k1 hin.symm (by rw [ht, k2]) (by omega) ha hold
          rcases goal with h | h
          · exact Or.inl (h.trans hlead)
          · exact Or.inr (dead_mono I G G2 h)
        · exact Or.inr (kill _ _ hc fun u hu ha => hex ⟨u, hu, ha⟩)
    · right
      obtain ⟨c, Q, hc⟩ := he
      refine kill c Q hc fun u hu ha => ?_
      have := ha.le I2
      omega
  case B =>
    intro u t i ha hAt
    rcases acked_new I G G2 ha with h | ⟨rfl, rfl, h | ⟨hl, h⟩⟩
    · have hle := h.le I2
      rcases at_new I G hAt with hold | ⟨_, _, h2, _⟩
      · rw [take_put I G hold.2.1]
        rcases I2.B u t i h hold with h1 | h1
        · rcases node u with ⟨rfl, hn⟩ | ⟨_, hn⟩ <;> rw [hn]
          · rcases G2.keep t i h hold h1 with h3 | h3
            · exact Or.inl h3
            · exact Or.inr (dead_mono I G G2 h3)
          · exact Or.inl h1
        · exact Or.inr (dead_mono I G G2 h1)
      · omega
    · left
      rw [take_put I G h.2.1, put_nodes_self]; exact h.2.2
    · left
      rw [put_lead_self hl, put_nodes_self]; exact List.take_prefix _ _
  case C =>
    intro m t i hm hc hrole hinc hterm hlt ha hAt
    have hge := I'.voteSaved m hm hc
    have hge' := I'.savedTerm m.src.1
    have hold : Acked s m.src.1 t i := by
      rcases acked_new I G G2 ha with h | ⟨e, h, _⟩
      · exact h
      · rw [e, put_nodes_self] at hge hge'; omega
    have hAt' : At s t i := by
      rcases at_new I G hAt with h | ⟨_, _, h, _⟩
      · exact h
      · have := hold.le I2; omega
    rw [take_put I G hAt'.2.1]
    have fin : (s.hist.lead t).take i <+: ((s.put mem v n' ms).nodes m.cand.1).log ∨ Dead mem s t i →
        (s.hist.lead t).take i <+: ((s.put mem v n' ms).nodes m.cand.1).log ∨
          Dead mem (s.put mem v n' ms) t i := fun h => h.imp id (dead_mono I G G2)
    apply fin
    rcases mem_put_msgs.1 hm with h | h
    · rcases node m.cand.1 with ⟨e, hn⟩ | ⟨hne, hn⟩ <;> rw [hn] at hrole hinc hterm ⊢
      · have hi := G.inc (by rw [hrole]; decide)
        rcases (G.cand hrole).2 with ⟨h1, h2⟩ | h1
        · have := I2.C m t i h hc
          rw [e] at this
          rw [G2.cand hrole]
          exact this h1 (by omega) (by omega) hlt hold hAt'
        · have := I2.voteInc m h hc
          rw [e] at this
          omega
      · exact I2.C m t i h hc hrole hinc hterm hlt hold hAt'
    · obtain ⟨r, hr, h1, h2, h3, h4, h5⟩ := G2.vote m h hc
      rw [h2, put_nodes_ne h4] at hrole hinc hterm ⊢
      obtain ⟨k1, k2⟩ := I2.reqLog r hr hrole hinc (by omega)
      rw [h1] at hold
      rcases I2.B v t i hold hAt' with h6 | h6
      · refine uptodate I I2 hAt' h6 ?_
        rw [← k2, ← k1]; exact h5
      · exact Or.inr h6

end

end Verif.Raft

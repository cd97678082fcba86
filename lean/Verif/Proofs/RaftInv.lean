import Verif.Proofs.RaftLog
import Mathlib.Data.List.Perm.Subperm
/-
The invariant behind election safety and log matching, and its preservation by `Sys.put`.
-/
namespace Verif.Raft

/-- A vote the candidate would count: granted by a node that was at a lower term. -/
def Counted (m : Vote) : Prop := m.granted = true ∧ m.srcTerm < m.term

/-- A majority of the members, by name. -/
def Quor (mem Q : List Nat) : Prop := Q.Nodup ∧ Q ⊆ mem ∧ mem.length < 2 * Q.length

theorem Quor.inter {mem P Q : List Nat} (hP : Quor mem P) (hQ : Quor mem Q) :
    ∃ u, u ∈ P ∧ u ∈ Q := by
  refine Classical.byContradiction fun hno => ?_
  have hd : (P ++ Q).Nodup := by
    rw [List.nodup_append]
    exact ⟨hP.1, hQ.1, fun a ha b hb hab => hno ⟨a, ha, hab ▸ hb⟩⟩
  have hs : P ++ Q ⊆ mem := by
    intro x hx
    rcases List.mem_append.1 hx with h | h
    · exact hP.2.1 h
    · exact hQ.2.1 h
  have := (List.subperm_of_subset hd hs).length_le
  have h1 := hP.2.2
  have h2 := hQ.2.2
  simp at this
  omega

/-- Some process won the election of term `t`. -/
def Elected (h : Hist) (t : Nat) : Prop := ∃ c Q, (t, c, Q) ∈ h.elected

/-- Every entry of `L` comes, with all before it, from the log of the leader of its term. -/
def LogOK (h : Hist) (L : List Entry) : Prop :=
  ∀ i (hi : i < L.length), Elected h L[i].term ∧ L.take (i + 1) <+: h.lead L[i].term

/-- The voters listed stand behind process `c` at term `t`. -/
def Backed (mem : List Nat) (msgs : List Msg) (c : PeerID) (t : Nat) (Q : List Nat) : Prop :=
  Q.Nodup ∧ Q ⊆ mem ∧ c.1 ∈ Q ∧
    ∀ u ∈ Q, u ≠ c.1 → ∃ m, Msg.vote m ∈ msgs ∧ Counted m ∧ m.src.1 = u ∧ m.cand = c ∧ m.term = t

/-- An AppendEntries message describes a prefix `P` of the log of the leader of its term. -/
def AEok (h : Hist) (m : AE) (P : List Entry) : Prop :=
  Elected h m.term ∧ P <+: h.lead m.term ∧ m.terms = terms P ∧ m.prev ≤ P.length ∧
    m.entries <+: P.drop m.prev ∧ m.prevTerm = termAt P m.prev

structure Inv1 (mem : List Nat) (s : Sys) : Prop where
  savedTerm : ∀ v, (s.nodes v).saved.term ≤ (s.nodes v).term
  savedMc : ∀ v, (s.nodes v).saved.mcTerm ≤ (s.nodes v).mcTerm
  voteSaved : ∀ m, Msg.vote m ∈ s.msgs → Counted m → m.term ≤ (s.nodes m.src.1).saved.term
  voteUniq : ∀ m m', Msg.vote m ∈ s.msgs → Msg.vote m' ∈ s.msgs → Counted m → Counted m' →
    m.src.1 = m'.src.1 → m.term = m'.term → m.cand = m'.cand
  candNoVote : ∀ v m, (s.nodes v).role = .candidate → Msg.vote m ∈ s.msgs → Counted m →
    m.src.1 = v → m.term ≠ (s.nodes v).term
  cand : ∀ v, (s.nodes v).role = .candidate →
    Backed mem s.msgs (v, (s.nodes v).inc) (s.nodes v).term (s.nodes v).yes
  elSaved : ∀ T c Q, (T, c, Q) ∈ s.hist.elected →
    T ≤ (s.nodes c.1).saved.term ∧ T ≤ (s.nodes c.1).saved.mcTerm
  elNoVote : mem.length ≠ 1 → ∀ T c Q m, (T, c, Q) ∈ s.hist.elected → Msg.vote m ∈ s.msgs →
    Counted m → m.src.1 = c.1 → m.term ≠ T
  elQ : ∀ T c Q, (T, c, Q) ∈ s.hist.elected → Quor mem Q ∧ Backed mem s.msgs c T Q
  leaderEl : ∀ v, (s.nodes v).role = .leader →
    ∃ Q, ((s.nodes v).term, (v, (s.nodes v).inc), Q) ∈ s.hist.elected
  elUniq : ∀ T c Q c' Q', (T, c, Q) ∈ s.hist.elected → (T, c', Q') ∈ s.hist.elected → c = c'
  leadNil : ∀ T, ¬ Elected s.hist T → s.hist.lead T = []
  leadLog : ∀ v, (s.nodes v).role = .leader → s.hist.lead (s.nodes v).term = (s.nodes v).log
  leadOK : ∀ T, LogOK s.hist (s.hist.lead T)
  leadLast : ∀ T, Elected s.hist T → s.hist.lead T ≠ [] ∧ lastTerm (s.hist.lead T) = T
  logOK : ∀ v, LogOK s.hist (s.nodes v).log
  aeOK : ∀ m, Msg.ae m ∈ s.msgs → ∃ P, AEok s.hist m P

/-- What a step at node `v` has to satisfy for `Inv1`. -/
structure Good1 (mem : List Nat) (s : Sys) (v : Nat) (n' : Node) (ms : List Msg) : Prop where
  isMem : v ∈ mem
  st : (s.nodes v).saved.term ≤ n'.saved.term
  smc : (s.nodes v).saved.mcTerm ≤ n'.saved.mcTerm
  st' : n'.saved.term ≤ n'.term
  smc' : n'.saved.mcTerm ≤ n'.mcTerm
  inc : n'.role ≠ .follower → n'.inc = (s.nodes v).inc
  cand : n'.role = .candidate → Backed mem s.msgs (v, n'.inc) n'.term n'.yes ∧
    ((s.nodes v).role = .candidate ∧ n'.term = (s.nodes v).term ∨ (s.nodes v).term < n'.term)
  lead : n'.role = .leader →
    ((s.nodes v).role = .leader ∧ n'.term = (s.nodes v).term ∧
      ∃ new : List Entry, n'.log = (s.nodes v).log ++ new ∧ ∀ e ∈ new, e.term = n'.term) ∨
    ((s.nodes v).role ≠ .leader ∧ n'.saved.term = n'.term ∧ n'.saved.mcTerm = n'.term ∧
      (s.nodes v).mcTerm < n'.term ∧ (s.nodes v).term ≤ n'.term ∧
      Quor mem (if mem.length = 1 then [v] else n'.yes) ∧
      Backed mem s.msgs (v, n'.inc) n'.term (if mem.length = 1 then [v] else n'.yes) ∧
      (mem.length ≠ 1 → (s.nodes v).role = .candidate ∧ n'.term = (s.nodes v).term) ∧
      ∃ c, n'.log = (s.nodes v).log ++ [⟨n'.term, c⟩])
  log : n'.role ≠ .leader → n'.log = (s.nodes v).log ∨ LogOK s.hist n'.log
  vote : ∀ m, Msg.vote m ∈ ms → m.src.1 = v ∧ (Counted m →
    (s.nodes v).term < m.term ∧ m.term ≤ n'.saved.term ∧ n'.role = .follower)
  vote1 : ∀ m m', m ∈ ms → m' ∈ ms → m = m'
  ae : ∀ m, Msg.ae m ∈ ms → ∃ P, AEok s.hist m P

section
variable {mem : List Nat} {s : Sys} {v : Nat} {n' : Node} {ms : List Msg}

theorem put_nodes_self : (s.put mem v n' ms).nodes v = n' := by simp [Sys.put, upd]

theorem put_nodes_ne {u : Nat} (h : u ≠ v) : (s.put mem v n' ms).nodes u = s.nodes u := by
  simp [Sys.put, upd, h]

theorem put_msgs : (s.put mem v n' ms).msgs = s.msgs ++ ms := rfl

theorem mem_put_msgs {m : Msg} : m ∈ (s.put mem v n' ms).msgs ↔ m ∈ s.msgs ∨ m ∈ ms := by
  rw [put_msgs, List.mem_append]

theorem put_elected_sub {x} (h : x ∈ s.hist.elected) : x ∈ (s.put mem v n' ms).hist.elected := by
  simp only [Sys.put]; split
  · exact List.mem_append_left _ h
  · exact h

theorem Elected.put {t} (h : Elected s.hist t) : Elected (s.put mem v n' ms).hist t := by
  obtain ⟨c, Q, h⟩ := h; exact ⟨c, Q, put_elected_sub h⟩

theorem mem_put_elected {x} : x ∈ (s.put mem v n' ms).hist.elected ↔
    x ∈ s.hist.elected ∨ (n'.role = .leader ∧ (s.nodes v).role ≠ .leader ∧
      x = (n'.term, (v, n'.inc), if mem.length = 1 then [v] else n'.yes)) := by
  simp only [Sys.put]; split
  · rw [List.mem_append, List.mem_singleton]; constructor
    · rintro (h | h)
      · exact Or.inl h
      · exact Or.inr ⟨by grind, by grind, h⟩
    · rintro (h | h)
      · exact Or.inl h
      · exact Or.inr h.2.2
  · rename_i hno
    constructor
    · exact Or.inl
    · rintro (h | h)
      · exact h
      · exact (hno ⟨h.1, h.2.1⟩).elim

theorem put_lead_ne {t : Nat} (h : n'.role = .leader → t ≠ n'.term) :
    (s.put mem v n' ms).hist.lead t = s.hist.lead t := by
  simp only [Sys.put]; split
  · rename_i hl; simp [upd, h hl]
  · rfl

theorem put_lead_self (h : n'.role = .leader) :
    (s.put mem v n' ms).hist.lead n'.term = n'.log := by
  simp [Sys.put, h, upd]

theorem Backed.put {c t Q} (h : Backed mem s.msgs c t Q) :
    Backed mem (s.put mem v n' ms).msgs c t Q := by
  refine ⟨h.1, h.2.1, h.2.2.1, fun u hu hne => ?_⟩
  obtain ⟨m, hm, r⟩ := h.2.2.2 u hu hne
  exact ⟨m, mem_put_msgs.2 (Or.inl hm), r⟩

/-- A new leader's term had no leader before. -/
theorem fresh_term (I : Inv1 mem s) (G : Good1 mem s v n' ms) (hl : n'.role = .leader)
    (hn : (s.nodes v).role ≠ .leader) : ¬ Elected s.hist n'.term := by
  rintro ⟨c, Q, hc⟩
  rcases G.lead hl with h | ⟨_, h2, h3, h4, h5, hq, hb, hcand, _⟩
  · exact hn h.1
  by_cases hcv : c.1 = v
  · have := (I.elSaved _ _ _ hc).2
    have h6 := I.savedMc v
    rw [hcv] at this; omega
  obtain ⟨hq', hb'⟩ := I.elQ _ _ _ hc
  obtain ⟨u, hu1, hu2⟩ := hq'.inter hq
  have hlen : mem.length ≠ 1 := by
    intro h1
    have e1 := hb'.2.1 hb'.2.2.1
    have e2 := G.isMem
    match mem, h1 with
    | [x], _ => rw [List.mem_singleton] at e1 e2; omega
  obtain ⟨hc1, hc2⟩ := hcand hlen
  by_cases huv : u = v
  · subst huv
    obtain ⟨m, hm, hcm, hs, _, ht⟩ := hb'.2.2.2 u hu1 (Ne.symm hcv)
    exact I.candNoVote u m hc1 hm hcm hs (by omega)
  · obtain ⟨m, hm, hcm, hs, hcd, ht⟩ := hb.2.2.2 u hu2 huv
    by_cases huc : u = c.1
    · exact I.elNoVote hlen _ _ _ m hc hm hcm (by omega) ht
    · obtain ⟨m2, hm2, hcm2, hs2, hcd2, ht2⟩ := hb'.2.2.2 u hu1 huc
      have := I.voteUniq m m2 hm hm2 hcm hcm2 (by omega) (by omega)
      rw [hcd, hcd2] at this
      exact hcv (by rw [← this])

/-- The log of a leader only grows. -/
theorem lead_prefix (I : Inv1 mem s) (G : Good1 mem s v n' ms) (t : Nat) :
    s.hist.lead t <+: (s.put mem v n' ms).hist.lead t := by
  by_cases hl : n'.role = .leader
  · by_cases ht : t = n'.term
    · subst ht
      rw [put_lead_self hl]
      by_cases hn : (s.nodes v).role = .leader
      · rcases G.lead hl with ⟨_, h2, new, h3, _⟩ | h
        · rw [h2, I.leadLog v hn, h3]; exact List.prefix_append _ _
        · exact (h.1 hn).elim
      · rw [I.leadNil _ (fresh_term I G hl hn)]; exact List.nil_prefix
    · rw [put_lead_ne (fun _ => ht)]; exact List.prefix_refl _
  · rw [put_lead_ne (fun h => (hl h).elim)]; exact List.prefix_refl _

theorem LogOK.put (I : Inv1 mem s) (G : Good1 mem s v n' ms) {L} (h : LogOK s.hist L) :
    LogOK (s.put mem v n' ms).hist L := fun i hi =>
  ⟨(h i hi).1.put, (h i hi).2.trans (lead_prefix I G _)⟩

theorem AEok.put (I : Inv1 mem s) (G : Good1 mem s v n' ms) {m P} (h : AEok s.hist m P) :
    AEok (s.put mem v n' ms).hist m P :=
  ⟨h.1.put, h.2.1.trans (lead_prefix I G _), h.2.2⟩

theorem elected_self (I : Inv1 mem s) (G : Good1 mem s v n' ms) (hl : n'.role = .leader) :
    ∃ Q, (n'.term, (v, n'.inc), Q) ∈ (s.put mem v n' ms).hist.elected := by
  by_cases hn : (s.nodes v).role = .leader
  · rcases G.lead hl with ⟨_, h2, _⟩ | h
    · obtain ⟨Q, hQ⟩ := I.leaderEl v hn
      rw [G.inc (by rw [hl]; decide), h2]
      exact ⟨Q, put_elected_sub hQ⟩
    · exact (h.1 hn).elim
  · exact ⟨_, mem_put_elected.2 (Or.inr ⟨hl, hn, rfl⟩)⟩

/-- A leader's new log has the required shape. -/
theorem leader_logOK (I : Inv1 mem s) (G : Good1 mem s v n' ms) (hl : n'.role = .leader) :
    LogOK (s.put mem v n' ms).hist n'.log ∧ n'.log ≠ [] ∧ lastTerm n'.log = n'.term := by
  have hex : ∃ new : List Entry, n'.log = (s.nodes v).log ++ new ∧ (∀ e ∈ new, e.term = n'.term) ∧
      (new = [] → (s.nodes v).role = .leader ∧ n'.term = (s.nodes v).term) := by
    rcases G.lead hl with ⟨h1, h2, new, h3, h4⟩ | ⟨_, _, _, _, _, _, _, _, c, hc⟩
    · exact ⟨new, h3, h4, fun _ => ⟨h1, h2⟩⟩
    · exact ⟨_, hc, by simp, by simp⟩
  obtain ⟨new, hnew, hterm, hnil⟩ := hex
  obtain ⟨Q, hQ⟩ := elected_self I G hl
  refine ⟨?_, ?_⟩
  · intro i hi
    by_cases hi2 : i < (s.nodes v).log.length
    · have := LogOK.put I G (I.logOK v) i hi2
      have e : n'.log[i] = (s.nodes v).log[i] := by
        simp [hnew, List.getElem_append_left hi2]
      rw [e]
      refine ⟨this.1, ?_⟩
      rw [hnew, List.take_append_of_le_length (by omega)]
      exact this.2
    · have e : n'.log[i].term = n'.term := by
        apply hterm
        have : n'.log[i] = new[i - (s.nodes v).log.length]'(by simp [hnew] at hi; omega) := by
          simp [hnew, List.getElem_append_right (show (s.nodes v).log.length ≤ i by omega)]
        rw [this]; exact List.getElem_mem _
      rw [e, put_lead_self hl]
      exact ⟨⟨_, _, hQ⟩, List.take_prefix _ _⟩
  · by_cases hne : new = []
    · obtain ⟨h1, h2⟩ := hnil hne
      rw [hnew, hne, List.append_nil, h2, ← I.leadLog v h1]
      obtain ⟨Q, hQ⟩ := I.leaderEl v h1
      exact I.leadLast _ ⟨_, _, hQ⟩
    · have hpos := List.length_pos_iff.2 hne
      refine ⟨by rw [hnew]; simp [hne], ?_⟩
      unfold lastTerm
      have hlen : n'.log.length = (s.nodes v).log.length + new.length := by simp [hnew]
      rw [termAt_eq (by omega) (Nat.le_refl _)]
      apply hterm
      have : n'.log[n'.log.length - 1]'(by omega) = new[new.length - 1]'(by omega) := by
        simp only [hnew]
        rw [List.getElem_append_right (by simp; omega)]
        congr 1; simp; omega
      rw [this]; exact List.getElem_mem _

theorem Inv1.put (I : Inv1 mem s) (G : Good1 mem s v n' ms) : Inv1 mem (s.put mem v n' ms) := by
  have hnode : ∀ u, (u = v ∧ (s.put mem v n' ms).nodes u = n') ∨
      (u ≠ v ∧ (s.put mem v n' ms).nodes u = s.nodes u) := fun u => by
    by_cases h : u = v
    · subst h; exact Or.inl ⟨rfl, put_nodes_self⟩
    · exact Or.inr ⟨h, put_nodes_ne h⟩
  have hsv : ∀ u, (s.nodes u).saved.term ≤ ((s.put mem v n' ms).nodes u).saved.term := fun u => by
    rcases hnode u with ⟨rfl, h⟩ | ⟨_, h⟩ <;> rw [h]
    · exact G.st
    · exact Nat.le_refl _
  have hsm : ∀ u, (s.nodes u).saved.mcTerm ≤ ((s.put mem v n' ms).nodes u).saved.mcTerm := fun u => by
    rcases hnode u with ⟨rfl, h⟩ | ⟨_, h⟩ <;> rw [h]
    · exact G.smc
    · exact Nat.le_refl _
  constructor
  case savedTerm =>
    intro u; rcases hnode u with ⟨rfl, h⟩ | ⟨_, h⟩ <;> rw [h]
    · exact G.st'
    · exact I.savedTerm u
  case savedMc =>
    intro u; rcases hnode u with ⟨rfl, h⟩ | ⟨_, h⟩ <;> rw [h]
    · exact G.smc'
    · exact I.savedMc u
  case voteSaved =>
    intro m hm hc
    rcases mem_put_msgs.1 hm with h | h
    · exact Nat.le_trans (I.voteSaved m h hc) (hsv _)
    · obtain ⟨h1, h2⟩ := G.vote m h
      rw [h1, put_nodes_self]; exact (h2 hc).2.1
  case voteUniq =>
    intro m m' hm hm' hc hc' hs ht
    rcases mem_put_msgs.1 hm with h | h <;> rcases mem_put_msgs.1 hm' with h' | h'
    · exact I.voteUniq m m' h h' hc hc' hs ht
    · obtain ⟨h1, h2⟩ := G.vote m' h'
      have h3 := I.voteSaved m h hc
      have h4 := (h2 hc').1
      have h5 := I.savedTerm v
      rw [hs, h1] at h3; omega
    · obtain ⟨h1, h2⟩ := G.vote m h
      have h3 := I.voteSaved m' h' hc'
      have h4 := (h2 hc).1
      have h5 := I.savedTerm v
      rw [← hs, h1] at h3; omega
    · have := G.vote1 _ _ h h'
      simp only [Msg.vote.injEq] at this; rw [this]
  case candNoVote =>
    intro u m hr hm hc hs
    rcases hnode u with ⟨rfl, h⟩ | ⟨hne, h⟩ <;> rw [h] at hr ⊢
    · rcases mem_put_msgs.1 hm with h' | h'
      · rcases (G.cand hr).2 with ⟨h1, h2⟩ | h1
        · rw [h2]; exact I.candNoVote u m h1 h' hc hs
        · have h3 := I.voteSaved m h' hc
          have h5 := I.savedTerm u
          rw [hs] at h3; omega
      · have := ((G.vote m h').2 hc).2.2
        rw [hr] at this; cases this
    · rcases mem_put_msgs.1 hm with h' | h'
      · exact I.candNoVote u m hr h' hc hs
      · exact (hne (hs.symm.trans (G.vote m h').1)).elim
  case cand =>
    intro u hr
    rcases hnode u with ⟨rfl, h⟩ | ⟨hne, h⟩ <;> rw [h] at hr ⊢
    · exact (G.cand hr).1.put
    · exact (I.cand u hr).put
  case elSaved =>
    intro T c Q hc
    rcases mem_put_elected.1 hc with h | ⟨h1, h2, h3⟩
    · have := I.elSaved T c Q h
      exact ⟨Nat.le_trans this.1 (hsv _), Nat.le_trans this.2 (hsm _)⟩
    · simp only [Prod.mk.injEq] at h3
      obtain ⟨rfl, rfl, rfl⟩ := h3
      rw [put_nodes_self]
      rcases G.lead h1 with h | h
      · exact (h2 h.1).elim
      · exact ⟨by rw [h.2.1]; exact Nat.le_refl _, by rw [h.2.2.1]; exact Nat.le_refl _⟩
  case elNoVote =>
    intro hlen T c Q m hc hm hcm hs ht
    rcases mem_put_elected.1 hc with h | ⟨h1, h2, h3⟩
    · rcases mem_put_msgs.1 hm with h' | h'
      · exact I.elNoVote hlen T c Q m h h' hcm hs ht
      · obtain ⟨h4, h5⟩ := G.vote m h'
        have h6 := (h5 hcm).1
        have h7 := (I.elSaved T c Q h).1
        have h8 := I.savedTerm v
        rw [← hs, h4] at h7; omega
    · simp only [Prod.mk.injEq] at h3
      obtain ⟨rfl, rfl, rfl⟩ := h3
      rcases mem_put_msgs.1 hm with h' | h'
      · rcases G.lead h1 with h | h
        · exact h2 h.1
        · obtain ⟨h4, h5⟩ := h.2.2.2.2.2.2.2.1 hlen
          exact I.candNoVote v m h4 h' hcm hs (by omega)
      · have := ((G.vote m h').2 hcm).2.2
        rw [h1] at this; cases this
  case elQ =>
    intro T c Q hc
    rcases mem_put_elected.1 hc with h | ⟨h1, h2, h3⟩
    · exact ⟨(I.elQ T c Q h).1, (I.elQ T c Q h).2.put⟩
    · simp only [Prod.mk.injEq] at h3
      obtain ⟨rfl, rfl, rfl⟩ := h3
      rcases G.lead h1 with h | h
      · exact (h2 h.1).elim
      · exact ⟨h.2.2.2.2.2.1, h.2.2.2.2.2.2.1.put⟩
  case leaderEl =>
    intro u hr
    rcases hnode u with ⟨rfl, h⟩ | ⟨hne, h⟩ <;> rw [h] at hr ⊢
    · exact elected_self I G hr
    · obtain ⟨Q, hQ⟩ := I.leaderEl u hr
      exact ⟨Q, put_elected_sub hQ⟩
  case elUniq =>
    intro T c Q c' Q' hc hc'
    rcases mem_put_elected.1 hc with h | ⟨h1, h2, h3⟩ <;>
      rcases mem_put_elected.1 hc' with h' | ⟨h1', h2', h3'⟩
    · exact I.elUniq T c Q c' Q' h h'
    · simp only [Prod.mk.injEq] at h3'
      obtain ⟨rfl, rfl, rfl⟩ := h3'
      exact (fresh_term I G h1' h2' ⟨_, _, h⟩).elim
    · simp only [Prod.mk.injEq] at h3
      obtain ⟨rfl, rfl, rfl⟩ := h3
      exact (fresh_term I G h1 h2 ⟨_, _, h'⟩).elim
    · simp only [Prod.mk.injEq] at h3 h3'
      rw [h3.2.1, h3'.2.1]
  case leadNil =>
    intro T hT
    by_cases hl : n'.role = .leader
    · have hne : T ≠ n'.term := by
        rintro rfl
        obtain ⟨Q, hQ⟩ := elected_self I G hl
        exact hT ⟨_, _, hQ⟩
      rw [put_lead_ne fun _ => hne]
      exact I.leadNil T fun h => hT h.put
    · rw [put_lead_ne fun h => (hl h).elim]
      exact I.leadNil T fun h => hT h.put
  case leadLog =>
    intro u hr
    rcases hnode u with ⟨rfl, h⟩ | ⟨hne, h⟩ <;> rw [h] at hr ⊢
    · exact put_lead_self hr
    · rw [put_lead_ne, I.leadLog u hr]
      intro hl ht
      obtain ⟨Q, hQ⟩ := I.leaderEl u hr
      by_cases hn : (s.nodes v).role = .leader
      · rcases G.lead hl with h6 | h6
        · obtain ⟨Q', hQ'⟩ := I.leaderEl v hn
          rw [← h6.2.1, ← ht] at hQ'
          have := I.elUniq _ _ _ _ _ hQ hQ'
          exact hne (Prod.mk.inj this).1
        · exact h6.1 hn
      · exact fresh_term I G hl hn ⟨_, _, ht ▸ hQ⟩
  case leadOK =>
    intro T
    by_cases hl : n'.role = .leader
    · by_cases ht : T = n'.term
      · subst ht; rw [put_lead_self hl]; exact (leader_logOK I G hl).1
      · rw [put_lead_ne fun _ => ht]; exact (I.leadOK T).put I G
    · rw [put_lead_ne fun h => (hl h).elim]; exact (I.leadOK T).put I G
  case leadLast =>
    intro T hT
    by_cases hl : n'.role = .leader ∧ T = n'.term
    · obtain ⟨hl, rfl⟩ := hl
      rw [put_lead_self hl]; exact (leader_logOK I G hl).2
    · rw [put_lead_ne fun h ht => hl ⟨h, ht⟩]
      obtain ⟨c, Q, hc⟩ := hT
      rcases mem_put_elected.1 hc with h | ⟨h1, _, h3⟩
      · exact I.leadLast T ⟨c, Q, h⟩
      · exact (hl ⟨h1, (Prod.mk.inj h3).1⟩).elim
  case logOK =>
    intro u
    rcases hnode u with ⟨rfl, h⟩ | ⟨hne, h⟩ <;> rw [h]
    · by_cases hl : n'.role = .leader
      · exact (leader_logOK I G hl).1
      · rcases G.log hl with h6 | h6
        · rw [h6]; exact (I.logOK u).put I G
        · exact h6.put I G
    · exact (I.logOK u).put I G
  case aeOK =>
    intro m hm
    rcases mem_put_msgs.1 hm with h | h
    · obtain ⟨P, hP⟩ := I.aeOK m h; exact ⟨P, hP.put I G⟩
    · obtain ⟨P, hP⟩ := G.ae m h; exact ⟨P, hP.put I G⟩

end

/-- Two logs made of leaders' logs that agree on the term at an index agree up to it. -/
theorem LogOK.take_eq {h : Hist} {A B : List Entry} (hA : LogOK h A) (hB : LogOK h B) {k : Nat}
    (hkA : k ≤ A.length) (hkB : k ≤ B.length) (ht : (terms A).take k = (terms B).take k) :
    A.take k = B.take k := by
  rcases Nat.eq_zero_or_pos k with rfl | hk
  · simp
  · have h1 := hA (k - 1) (by omega)
    have h2 := hB (k - 1) (by omega)
    have e : A[k - 1].term = B[k - 1].term := by
      have := congrArg (fun l => l[k - 1]?) ht
      simp only [List.getElem?_take, show k - 1 < k by omega, if_true] at this
      simp only [terms, List.getElem?_map] at this
      rw [List.getElem?_eq_getElem (by omega), List.getElem?_eq_getElem (by omega)] at this
      simpa using this
    rw [show k - 1 + 1 = k by omega] at h1 h2
    rw [← e] at h2
    have l1 : (A.take k).length = k := by simp; omega
    have l2 : (B.take k).length = k := by simp; omega
    exact (prefix_of_prefix_le h1.2 h2.2 (by omega)).eq_of_length (by omega)

theorem LogOK.prefix {h : Hist} {A B : List Entry} (hB : LogOK h B) (hp : A <+: B) : LogOK h A := by
  intro i hi
  have hl := hp.length_le
  have := hB i (by omega)
  have e : A[i] = B[i] := hp.getElem _
  rw [e]
  refine ⟨this.1, ?_⟩
  rw [take_prefix_of_prefix hp (by omega)] at this
  exact this.2

end Verif.Raft

import Verif.Proofs.PreVote
/- Pre-votes: who agreed, who is cut off (C127), and the states without a way out (C126). -/
namespace Verif.PreVote

open Raft (Node Sys PeerID ReqVote Vote Msg Event Action upd quorum lastTerm Entry AsUpToDate put_nodes_self put_nodes_ne)

section
variable {mem : List Nat}

theorem quorum_le (nf : Bool) (h : 0 < mem.length) : mem.length < 2 * quorum mem nf := by
  unfold quorum; split <;> omega

/-! ## One node's pre-vote state -/

/-- What stands behind the pre-vote state of `v`. -/
structure Cons (mem : List Nat) (pm : List PMsg) (v inc : Nat) (pv : PV) : Prop where
  nodup : pv.yes.Nodup
  sub : pv.yes ⊆ mem
  self : pv.pterm ≠ 0 ∨ pv.eterm ≠ 0 → v ∈ pv.yes
  from_ : ∀ u ∈ pv.yes, u ≠ v → ∃ m, PMsg.ans m ∈ pm ∧ m.src.1 = u ∧ m.cand = (v, inc) ∧ m.granted = true ∧
    m.term = if pv.pterm = 0 then pv.eterm else pv.pterm
  one : pv.pterm = 0 ∨ pv.eterm = 0
  enough : pv.eterm ≠ 0 → mem.length < 2 * pv.yes.length

theorem cons_empty (pm : List PMsg) (v inc : Nat) : Cons mem pm v inc {} :=
  ⟨by simp, by simp, by simp, by simp, .inl rfl, by simp⟩

theorem Cons.mono {pm pm' : List PMsg} {v inc : Nat} {pv : PV} (h : Cons mem pm v inc pv) (hs : pm ⊆ pm') :
    Cons mem pm' v inc pv :=
  ⟨h.nodup, h.sub, h.self, fun u hu hne => by
    obtain ⟨m, h1, h2⟩ := h.from_ u hu hne
    exact ⟨m, hs h1, h2⟩, h.one, h.enough⟩

theorem cons_decide {pm : List PMsg} {v inc : Nat} {pv : PV} (h : Cons mem pm v inc pv) (hp : pv.pterm ≠ 0)
    (hv : 0 < mem.length) (nf : Bool) : Cons mem pm v inc (decidePre mem nf pv) := by
  unfold decidePre
  split
  · rename_i hq
    refine ⟨h.nodup, h.sub, fun _ => h.self (.inl hp), fun u hu hne => ?_, .inl rfl, fun _ => ?_⟩
    · obtain ⟨m, h1, h2, h3, h4, h5⟩ := h.from_ u hu hne
      rw [if_neg hp] at h5
      exact ⟨m, h1, h2, h3, h4, by simp [h5]⟩
    · have := quorum_le (mem := mem) nf hv
      show mem.length < 2 * pv.yes.length
      omega
  · split
    · exact cons_empty _ _ _
    · split
      · exact cons_empty _ _ _
      · exact h

theorem cons_tally {pm : List PMsg} {v : Nat} {n : Node} {pv : PV} {m : Vote} (h : Cons mem pm v n.inc pv)
    (hm : PMsg.ans m ∈ pm ∨ (m.src.1 = v ∧ v ∈ pv.yes)) (al nf : Bool) :
    Cons mem pm v n.inc (tallyPreVote mem v n pv m al nf) := by
  unfold tallyPreVote
  split
  · exact h
  rename_i ht
  split
  · exact h
  split
  · exact cons_empty _ _ _
  rename_i hp
  split
  · exact h
  split
  · exact h
  rename_i hsrc
  have hpt : pv.pterm ≠ 0 := by omega
  have he : pv.eterm = 0 := h.one.resolve_left hpt
  have hsrc : m.src.1 ∈ mem := Classical.not_not.1 hsrc
  have key : Cons mem pm v n.inc (countPre v n pv m al) ∧ (countPre v n pv m al).pterm ≠ 0 := by
    unfold countPre
    split
    · rename_i hc
      split
      · rename_i hg
        refine ⟨⟨?_, ?_, fun _ => List.mem_append_left _ (h.self (.inl hpt)), fun u hu hne => ?_, .inr he, fun x => absurd he x⟩, hpt⟩
        · rw [List.nodup_append]
          refine ⟨h.nodup, by simp, fun a ha b hb => ?_⟩
          rw [List.mem_singleton.1 hb]
          exact fun e => hc.2.1 (e ▸ ha)
        · intro x hx
          rcases List.mem_append.1 hx with hx | hx
          · exact h.sub hx
          · rw [List.mem_singleton.1 hx]; exact hsrc
        · rcases List.mem_append.1 hu with hu | hu
          · exact h.from_ u hu hne
          · rw [List.mem_singleton.1 hu] at hne ⊢
            rcases hm with hm | ⟨hm, _⟩
            · refine ⟨m, hm, rfl, hc.1, hg, ?_⟩
              show _ = if pv.pterm = 0 then _ else _
              rw [if_neg hpt]; exact Classical.not_not.1 ht
            · exact absurd hm hne
      · exact ⟨⟨h.nodup, h.sub, h.self, h.from_, h.one, h.enough⟩, hpt⟩
    · exact ⟨h, hpt⟩
  exact cons_decide key.1 key.2 (List.length_pos_of_mem hsrc) nf

theorem cons_begin {pm : List PMsg} {v : Nat} {n : Node} {pv : PV} (hv : v ∈ mem) (h : Cons mem pm v n.inc pv)
    (l1 l2 nf : Bool) : Cons mem (pm ++ (beginPreVote mem v n pv l1 l2 nf).2) v n.inc (beginPreVote mem v n pv l1 l2 nf).1 := by
  have h0 : Cons mem pm v n.inc { pterm := n.term + 1, yes := [v] } :=
    ⟨by simp, by simpa using hv, by simp, fun u hu hne => absurd (List.mem_singleton.1 hu) hne, .inr rfl, by simp⟩
  unfold beginPreVote
  dsimp only
  split
  · exact h.mono (List.subset_append_left _ _)
  · split
    · exact (cons_tally h0 (.inr ⟨rfl, List.mem_singleton.2 rfl⟩) true nf).mono (List.subset_append_left _ _)
    · exact h0.mono (List.subset_append_left _ _)

/-- Only a restart changes the incarnation; it also resets the pre-vote state. -/
theorem inc_step {s s' : Sys} {a : Action} {v : Nat} {e : Event} (h : Raft.step mem s a = some s')
    (he : a.event s = some (v, e)) : (s'.nodes v).inc = (s.nodes v).inc ∨ e = .crash := by
  obtain ⟨w, n', ms, t, rfl⟩ := Raft.step_tr h
  have hw : w = v := by
    cases t <;> simp_all [Action.event]
  subst hw
  rw [put_nodes_self]
  cases t with
  | timeout hv hr hb =>
    rcases Raft.beginElection_eq hv hr hb with ⟨_, h2, _⟩ | ⟨_, rfl, _⟩
    · exact .inl (Raft.up_becomeLeader h2).inc
    · exact .inl rfl
  | preVote => exact .inl rfl
  | stepDown => exact .inl (Raft.bf_facts _ _ _ _).2.1
  | reqVote hv hk hne =>
    exact .inl (Raft.handleRequestVote_eq w (s.nodes w) _ _).2.2.2.2.2.2.2.2.1.inc
  | vote hv hk hto ht =>
    rename_i k noop st nf fo m
    have c := (Raft.countVote_eq w (s.nodes w) m).2.2.2.1
    rcases Raft.tallyVote_cases ht with rfl | ⟨T, mc, sv, hT, n1, rfl, hn1⟩ | ⟨hr, hterm, hg, h | ⟨hb, hq⟩⟩
    · exact .inl rfl
    · rcases hn1 with ⟨rfl, _⟩ | ⟨rfl, _⟩
      · exact .inl (Raft.bf_facts _ _ _ _).2.1
      · exact .inl (by rw [(Raft.bf_facts _ _ _ _).2.1, c])
    · exact .inl (by rw [h, c])
    · exact .inl (by rw [(Raft.up_becomeLeader hb).inc, c])
  | ae => exact .inl (Raft.up_handleAE _ _ _).inc
  | ack hv hk hto =>
    rename_i k noop st nf fo m
    rcases Raft.handleAck_cases mem w (s.nodes w) m nf fo with ⟨mc, _, e, _⟩ | e | ⟨_, _, x, _, e | e⟩
    · exact .inl (by rw [e]; exact (Raft.bf_facts _ _ _ _).2.1)
    · exact .inl (by rw [e])
    · exact .inl (by rw [e])
    · exact .inl (by rw [e]; exact (Raft.leaderAdvance_eq mem _ nf).2.2.2.2.2.inc)
  | client =>
    refine .inl ?_
    unfold Raft.replicateBatch
    dsimp only
    split
    · exact (Raft.commitWhatWeCan_eq _).2.2.2.1
    · rfl
  | send => exact .inl rfl
  | join => exact .inl rfl
  | leave => exact .inl rfl
  | crash =>
    simp [Action.event] at he
    exact .inr he.symm

def AllCons (mem : List Nat) (s : PSys) : Prop := ∀ v, Cons mem s.pmsgs v (s.base.nodes v).inc (s.pv v)

theorem allCons_step {s s' : PSys} {a : PAction} (h : AllCons mem s) (hs : step mem s a = some s') : AllCons mem s' := by
  intro u
  cases a with
  | raft a =>
    obtain ⟨_, b, hb, rfl⟩ := step_raft_inv hs
    obtain ⟨v, e, he, hu⟩ := event_of_step hb
    dsimp only
    unfold pvAfter
    rw [he]
    dsimp only
    by_cases huv : u = v
    · subst huv
      split
      · simp only [upd, if_true]; exact cons_empty _ _ _
      · rename_i hres
        rcases inc_step hb he with hi | hi
        · rw [hi]; exact h u
        · subst hi; simp [resets] at hres
    · rw [hu u huv]
      split
      · simp only [upd, if_neg huv]; exact h u
      · exact h u
  | timer v l1 l2 nf =>
    simp only [step] at hs
    split at hs
    · rename_i hc
      cases hs
      dsimp only
      have hinc : ∀ w, ((demote mem s.base v).nodes w).inc = (s.base.nodes w).inc := by
        intro w
        unfold demote
        split
        · by_cases e : w = v
          · subst e; rw [put_nodes_self]
          · rw [put_nodes_ne e]
        · rfl
      by_cases huv : u = v
      · subst huv
        simp only [upd, if_true]
        refine cons_begin hc.1 ?_ l1 l2 nf
        rw [hinc]; exact h u
      · simp only [upd, if_neg huv]
        rw [hinc]
        exact (h u).mono (List.subset_append_left _ _)
    · cases hs
  | elect v noop =>
    simp only [step] at hs
    split at hs
    · rw [Option.map_eq_some_iff] at hs
      obtain ⟨b, hb, rfl⟩ := hs
      dsimp only
      by_cases huv : u = v
      · subst huv; simp only [upd, if_true]; exact cons_empty _ _ _
      · simp only [upd, if_neg huv]
        obtain ⟨w, e, he, hw⟩ := event_of_step hb
        cases he
        rw [hw u huv]; exact h u
    · cases hs
  | deliver v k st al nf =>
    simp only [step] at hs
    split at hs
    · split at hs
      · split at hs
        · cases hs; exact (h u).mono (List.subset_append_left _ _)
        · cases hs
      · rename_i m hm
        split at hs
        · cases hs
          dsimp only
          by_cases huv : u = v
          · subst huv
            simp only [upd, if_true]
            exact cons_tally (h u) (.inl (List.mem_of_getElem? hm)) al nf
          · simp only [upd, if_neg huv]; exact h u
        · cases hs
      · cases hs
    · cases hs

theorem allCons_run : ∀ (as : List PAction) {s s' : PSys}, AllCons mem s → run mem s as = some s' → AllCons mem s'
  | [], _, _, h, hr => by cases hr; exact h
  | a :: as, s, s', h, hr => by
    simp only [run, Option.bind_eq_some_iff] at hr
    obtain ⟨s1, h1, h2⟩ := hr
    exact allCons_run as (allCons_step h h1) h2

/-! ## A node that hears nothing -/

/-- The election it may still hold is the last. -/
structure Alone (T : Nat) (n : Node) (pv : PV) : Prop where
  term : n.term ≤ T + 1
  saved : n.saved.term ≤ T + 1
  ready : pv.eterm ≠ 0 → n.term ≤ T

/-- Nor even that one. -/
structure Still (T : Nat) (n : Node) (pv : PV) : Prop where
  term : n.term ≤ T
  saved : n.saved.term ≤ T
  ready : pv.eterm = 0

theorem begin_eterm {v : Nat} {n : Node} {pv : PV} (h2 : 2 ≤ mem.length) (l1 l2 nf : Bool) :
    (beginPreVote mem v n pv l1 l2 nf).1 = pv ∨ (beginPreVote mem v n pv l1 l2 nf).1.eterm = 0 := by
  unfold beginPreVote
  dsimp only
  split
  · exact .inl rfl
  · rw [if_neg (by omega)]; exact .inr rfl

/-- What can happen to a node of a larger cluster that hears nothing. -/
theorem notHeard_step {s s' : PSys} {a : PAction} {v : Nat} (h2 : 2 ≤ mem.length) (hn : NotHeard v a)
    (hs : step mem s a = some s') :
    (s'.base.nodes v).term ≤ (s.base.nodes v).saved.term ∧ (s'.base.nodes v).saved = (s.base.nodes v).saved ∧ s'.pv v = {} ∨
    ((s'.base.nodes v).term = (s.base.nodes v).term ∧
      ((s'.base.nodes v).saved = (s.base.nodes v).saved ∨ (s'.base.nodes v).saved.term = (s.base.nodes v).term) ∧
      (s'.pv v = s.pv v ∨ (s'.pv v).eterm = 0)) ∨
    ((s.pv v).eterm ≠ 0 ∧ (s'.base.nodes v).term = (s.base.nodes v).term + 1 ∧
      (s'.base.nodes v).saved = (s.base.nodes v).saved ∧ s'.pv v = {} ∧ ∃ noop, a = .elect v noop) := by
  cases a with
  | raft a =>
    obtain ⟨hp, b, hb, rfl⟩ := step_raft_inv hs
    obtain ⟨w, e, he, hu⟩ := event_of_step hb
    dsimp only
    by_cases hwv : v = w
    · subst hwv
      obtain ⟨w, n', ms, t, rfl⟩ := Raft.step_tr hb
      have hw : w = v := by cases t <;> simp_all [Action.event]
      subst hw
      rw [put_nodes_self]
      have hpv : pvAfter s a (s.base.put mem w n' ms) w = s.pv w ∨ (pvAfter s a (s.base.put mem w n' ms) w).eterm = 0 := by
        unfold pvAfter
        rw [he]
        dsimp only
        split
        · exact .inr (by simp [upd])
        · exact .inl rfl
      cases t with
      | timeout => exact hp.elim
      | preVote => exact hp.elim
      | stepDown hv hr =>
        have e := Raft.becomeFollower_eq (n := s.base.nodes w) (T := (s.base.nodes w).term) (mc := 0) (sv := true) (Nat.le_refl _)
        exact .inr (.inl ⟨e.2.1, .inr (e.2.2.2.2.2.2.2.2.2 rfl), hpv⟩)
      | reqVote => exact absurd rfl hn
      | vote => exact absurd rfl hn
      | ae => exact absurd rfl hn
      | ack => exact absurd rfl hn
      | client =>
        refine .inr (.inl ⟨?_, ?_, hpv⟩) <;> (unfold Raft.replicateBatch; dsimp only; rw [if_neg (by omega)])
        exact .inl rfl
      | send => exact .inr (.inl ⟨rfl, .inl rfl, hpv⟩)
      | join => exact .inr (.inl ⟨rfl, .inl rfl, hpv⟩)
      | leave => exact .inr (.inl ⟨rfl, .inl rfl, hpv⟩)
      | crash =>
        refine .inl ⟨Nat.le_refl _, rfl, ?_⟩
        simp [pvAfter, Action.event, resets, upd]
    · rw [hu v hwv]
      refine .inr (.inl ⟨rfl, .inl rfl, .inl ?_⟩)
      unfold pvAfter
      rw [he]
      dsimp only
      split
      · simp [upd, hwv]
      · rfl
  | timer w l1 l2 nf =>
    simp only [step] at hs
    split at hs
    · cases hs
      dsimp only
      have hd : ((demote mem s.base w).nodes v).term = (s.base.nodes v).term ∧
          ((demote mem s.base w).nodes v).saved = (s.base.nodes v).saved := by
        unfold demote
        split
        · by_cases e : v = w
          · subst e; rw [put_nodes_self]; exact ⟨rfl, rfl⟩
          · rw [put_nodes_ne e]; exact ⟨rfl, rfl⟩
        · exact ⟨rfl, rfl⟩
      refine .inr (.inl ⟨hd.1, .inl hd.2, ?_⟩)
      by_cases e : v = w
      · subst e; simp only [upd, if_true]; exact begin_eterm h2 _ _ _
      · simp [upd, e]
    · cases hs
  | elect w noop =>
    simp only [step] at hs
    split at hs
    · rename_i hc
      rw [Option.map_eq_some_iff] at hs
      obtain ⟨b, hb, rfl⟩ := hs
      dsimp only
      by_cases e : v = w
      · subst e
        obtain ⟨w, n', ms, t, rfl⟩ := Raft.step_tr hb
        cases t with
        | timeout hv hr hbe =>
          rcases Raft.beginElection_eq hv hr hbe with ⟨h1, _⟩ | ⟨_, rfl, _⟩
          · omega
          · rw [put_nodes_self]
            exact .inr (.inr ⟨hc.2.2.1, rfl, rfl, by simp [upd], _, rfl⟩)
      · obtain ⟨w', e', he, hw⟩ := event_of_step hb
        cases he
        rw [hw v e]
        exact .inr (.inl ⟨rfl, .inl rfl, .inl (by simp [upd, e])⟩)
    · cases hs
  | deliver w k st al nf =>
    have hne : w ≠ v := hn
    simp only [step] at hs
    split at hs
    · split at hs
      · split at hs
        · cases hs; exact .inr (.inl ⟨rfl, .inl rfl, .inl rfl⟩)
        · cases hs
      · split at hs
        · cases hs; exact .inr (.inl ⟨rfl, .inl rfl, .inl (by simp [upd, Ne.symm hne])⟩)
        · cases hs
      · cases hs
    · cases hs

theorem alone_step {s s' : PSys} {a : PAction} {v T : Nat} (h2 : 2 ≤ mem.length) (hn : NotHeard v a)
    (h : Alone T (s.base.nodes v) (s.pv v)) (hs : step mem s a = some s') : Alone T (s'.base.nodes v) (s'.pv v) := by
  have t := h.term
  have sv := h.saved
  rcases notHeard_step h2 hn hs with ⟨h1, h3, h4⟩ | ⟨h1, h3, h4⟩ | ⟨h0, h1, h3, h4⟩
  · exact ⟨by omega, by rw [h3]; exact sv, by simp [h4]⟩
  · refine ⟨by omega, ?_, fun he => ?_⟩
    · rcases h3 with h3 | h3
      · rw [h3]; exact sv
      · omega
    · rcases h4 with h4 | h4
      · rw [h4] at he; rw [h1]; exact h.ready he
      · exact absurd h4 he
  · have := h.ready h0
    exact ⟨by omega, by rw [h3]; exact sv, by simp [h4]⟩

theorem still_step {s s' : PSys} {a : PAction} {v T : Nat} (h2 : 2 ≤ mem.length) (hn : NotHeard v a)
    (h : Still T (s.base.nodes v) (s.pv v)) (hs : step mem s a = some s') : Still T (s'.base.nodes v) (s'.pv v) := by
  have t := h.term
  have sv := h.saved
  rcases notHeard_step h2 hn hs with ⟨h1, h3, h4⟩ | ⟨h1, h3, h4⟩ | ⟨h0, h1, h3, h4⟩
  · exact ⟨by omega, by rw [h3]; exact sv, by simp [h4]⟩
  · refine ⟨by omega, ?_, ?_⟩
    · rcases h3 with h3 | h3
      · rw [h3]; exact sv
      · omega
    · rcases h4 with h4 | h4
      · rw [h4]; exact h.ready
      · exact h4
  · exact absurd h.ready h0

theorem alone_run {v T : Nat} (h2 : 2 ≤ mem.length) : ∀ (as : List PAction) {s s' : PSys}, (∀ a ∈ as, NotHeard v a) →
    Alone T (s.base.nodes v) (s.pv v) → run mem s as = some s' → Alone T (s'.base.nodes v) (s'.pv v)
  | [], _, _, _, h, hr => by cases hr; exact h
  | a :: as, s, s', hn, h, hr => by
    simp only [run, Option.bind_eq_some_iff] at hr
    obtain ⟨s1, h1, hr⟩ := hr
    exact alone_run h2 as (fun x hx => hn x (List.mem_cons_of_mem _ hx)) (alone_step h2 (hn a List.mem_cons_self) h h1) hr

theorem still_run {v T : Nat} (h2 : 2 ≤ mem.length) : ∀ (as : List PAction) {s s' : PSys}, (∀ a ∈ as, NotHeard v a) →
    Still T (s.base.nodes v) (s.pv v) → run mem s as = some s' → Still T (s'.base.nodes v) (s'.pv v)
  | [], _, _, _, h, hr => by cases hr; exact h
  | a :: as, s, s', hn, h, hr => by
    simp only [run, Option.bind_eq_some_iff] at hr
    obtain ⟨s1, h1, hr⟩ := hr
    exact still_run h2 as (fun x hx => hn x (List.mem_cons_of_mem _ hx)) (still_step h2 (hn a List.mem_cons_self) h h1) hr

/-! ## No way out -/

/-- `q` would refuse the node with this term, log and configuration. -/
def Refuses (q : Node) (term mc : Nat) (log : List Entry) : Prop :=
  term + 1 ≤ q.term ∨ mc < q.mcTerm ∨ (q.log ≠ [] ∧ ¬ AsUpToDate log q.log)

/-- Every node of Q would be refused by another, `β`, and they have sent one another nothing else. -/
structure Stuck (mem Q : List Nat) (β : Nat → Nat) (s : PSys) : Prop where
  nodup : Q.Nodup
  size : Q.length ≤ mem.length / 2 + 1
  sub : Q ⊆ mem
  inQ : ∀ v ∈ Q, β v ∈ Q ∧ β v ≠ v
  role : ∀ v ∈ Q, (s.base.nodes v).role = .follower
  saved : ∀ v ∈ Q, (s.base.nodes v).saved.term = (s.base.nodes v).term ∧ (s.base.nodes v).saved.mcTerm = (s.base.nodes v).mcTerm
  refused : ∀ v ∈ Q, Refuses (s.base.nodes (β v)) (s.base.nodes v).term (s.base.nodes v).mcTerm (s.base.nodes v).log
  msgs : ∀ m ∈ s.base.msgs, m.src.1 ∈ Q → ∀ v ∈ Q, m.toward v = false
  reqs : ∀ m, PMsg.req m ∈ s.pmsgs → m.src.1 ∈ Q → m.term ≤ (s.base.nodes m.src.1).term + 1 ∧
    m.lastIdx = (s.base.nodes m.src.1).log.length ∧ m.lastTerm = lastTerm (s.base.nodes m.src.1).log ∧
    m.mcTerm = (s.base.nodes m.src.1).mcTerm
  answers : ∀ m, PMsg.ans m ∈ s.pmsgs → m.cand.1 ∈ Q → m.src.1 = β m.cand.1 → m.granted = false
  pv : ∀ v ∈ Q, (s.pv v).eterm = 0 ∧ (s.pv v).yes.Nodup ∧ (s.pv v).yes ⊆ Q ∧ β v ∉ (s.pv v).yes

theorem refused_answer {q : Nat} {n : Node} {m : ReqVote} {term mc : Nat} {log : List Entry} {st : Bool}
    (h : Refuses n term mc log) (h1 : m.term ≤ term + 1) (h2 : m.lastIdx = log.length) (h3 : m.lastTerm = lastTerm log)
    (h4 : m.mcTerm = mc) : (Raft.handleRequestPreVote q n m st).2.granted = false := by
  unfold Raft.handleRequestPreVote
  dsimp only
  split
  · rfl
  · split
    · rfl
    · rename_i hlt
      unfold Raft.logUpToDateAsOurs
      rcases h with h | h | ⟨hne, h⟩
      · omega
      · rw [if_pos (by omega)]
      · split
        · rfl
        · split
          · rfl
          · have hl : ¬ n.log.length < 1 := by
              have := List.length_pos_iff.2 hne
              omega
            unfold AsUpToDate at h
            rw [if_neg hl, h3, h2]
            split
            · exact absurd (.inl (by assumption)) h
            · split
              · rfl
              · rw [decide_eq_false_iff_not]
                omega

theorem Stuck.small {Q : List Nat} {β : Nat → Nat} {s : PSys} (h : Stuck mem Q β s) {v : Nat} (hv : v ∈ Q) {ys : List Nat}
    (h1 : ys.Nodup) (h2 : ys ⊆ Q) (h3 : β v ∉ ys) (nf : Bool) : ¬ quorum mem nf ≤ ys.length := by
  have hs : β v :: ys ⊆ Q := by
    intro x hx
    rcases List.mem_cons.1 hx with rfl | hx
    · exact (h.inQ v hv).1
    · exact h2 hx
  have := (List.subperm_of_subset (List.nodup_cons.2 ⟨h3, h1⟩) hs).length_le
  rw [List.length_cons] at this
  have h4 := h.size
  have h5 : 0 < mem.length := List.length_pos_of_mem (h.sub hv)
  unfold quorum
  split <;> omega

theorem Stuck.two {Q : List Nat} {β : Nat → Nat} {s : PSys} (h : Stuck mem Q β s) {v : Nat} (hv : v ∈ Q) : 2 ≤ mem.length := by
  have hs : [v, β v] ⊆ mem := by
    intro x hx
    rcases List.mem_cons.1 hx with rfl | hx
    · exact h.sub hv
    · rw [List.mem_singleton.1 hx]; exact h.sub (h.inQ v hv).1
  have := (List.subperm_of_subset (l₁ := [v, β v]) (by simp [Ne.symm (h.inQ v hv).2]) hs).length_le
  simpa using this

/-- The pre-vote state keeps short of a quorum. -/
theorem stuck_tally {Q : List Nat} {β : Nat → Nat} {s : PSys} (h : Stuck mem Q β s) {v : Nat} (hv : v ∈ Q) {n : Node}
    {pv : PV} (hp : pv.eterm = 0 ∧ pv.yes.Nodup ∧ pv.yes ⊆ Q ∧ β v ∉ pv.yes) {m : Vote} (hm : m.src.1 ∈ Q)
    (hg : m.src.1 = β v → m.granted = false) (al nf : Bool) :
    (tallyPreVote mem v n pv m al nf).eterm = 0 ∧ (tallyPreVote mem v n pv m al nf).yes.Nodup ∧
      (tallyPreVote mem v n pv m al nf).yes ⊆ Q ∧ β v ∉ (tallyPreVote mem v n pv m al nf).yes := by
  have h0 : ({} : PV).eterm = 0 ∧ ({} : PV).yes.Nodup ∧ ({} : PV).yes ⊆ Q ∧ β v ∉ ({} : PV).yes := by simp
  unfold tallyPreVote
  split
  · exact hp
  split
  · exact hp
  split
  · exact h0
  split
  · exact hp
  split
  · exact hp
  have key : (countPre v n pv m al).eterm = 0 ∧ (countPre v n pv m al).yes.Nodup ∧
      (countPre v n pv m al).yes ⊆ Q ∧ β v ∉ (countPre v n pv m al).yes := by
    unfold countPre
    split
    · rename_i hc
      split
      · rename_i hgr
        refine ⟨hp.1, ?_, ?_, ?_⟩
        · rw [List.nodup_append]
          refine ⟨hp.2.1, by simp, fun a ha b hb => ?_⟩
          rw [List.mem_singleton.1 hb]
          exact fun e => hc.2.1 (e ▸ ha)
        · intro x hx
          rcases List.mem_append.1 hx with hx | hx
          · exact hp.2.2.1 hx
          · rw [List.mem_singleton.1 hx]; exact hm
        · rw [List.mem_append, List.mem_singleton]
          rintro (e | e)
          · exact hp.2.2.2 e
          · rw [hg e.symm] at hgr; cases hgr
      · exact hp
    · exact hp
  unfold decidePre
  rw [if_neg (h.small hv key.2.1 key.2.2.1 key.2.2.2 nf)]
  split
  · exact h0
  · split
    · exact h0
    · exact key

/-- A step that leaves term, configuration and log of the nodes of Q alone. -/
theorem Stuck.keep {Q : List Nat} {β : Nat → Nat} {s s' : PSys} (h : Stuck mem Q β s)
    (hn : ∀ v ∈ Q, (s'.base.nodes v).role = .follower ∧ (s'.base.nodes v).term = (s.base.nodes v).term ∧
      (s'.base.nodes v).mcTerm = (s.base.nodes v).mcTerm ∧ (s'.base.nodes v).log = (s.base.nodes v).log ∧
      (s'.base.nodes v).saved = (s.base.nodes v).saved)
    (hm : s'.base.msgs = s.base.msgs) (hp : s'.pmsgs = s.pmsgs)
    (hv : ∀ v ∈ Q, (s'.pv v).eterm = 0 ∧ (s'.pv v).yes.Nodup ∧ (s'.pv v).yes ⊆ Q ∧ β v ∉ (s'.pv v).yes) :
    Stuck mem Q β s' := by
  refine ⟨h.nodup, h.size, h.sub, h.inQ, fun v hv => (hn v hv).1, fun v hv => ?_, fun v hv => ?_, ?_, ?_, ?_, hv⟩
  · obtain ⟨_, h2, h3, _, h5⟩ := hn v hv
    rw [h2, h3, h5]; exact h.saved v hv
  · obtain ⟨_, h2, h3, h4, _⟩ := hn v hv
    obtain ⟨_, k2, k3, k4, _⟩ := hn (β v) (h.inQ v hv).1
    have := h.refused v hv
    unfold Refuses at this ⊢
    rw [h2, h3, h4, k2, k3, k4]; exact this
  · rw [hm]; exact h.msgs
  · rw [hp]
    intro m hm hq
    obtain ⟨_, h2, h3, h4, _⟩ := hn m.src.1 hq
    rw [h2, h3, h4]; exact h.reqs m hm hq
  · rw [hp]; exact h.answers

theorem stuck_step {Q : List Nat} {β : Nat → Nat} {s s' : PSys} {a : PAction} (h : Stuck mem Q β s) (w : Within Q s a)
    (hs : step mem s a = some s') : Stuck mem Q β s' := by
  have h0 : ∀ v, ({} : PV).eterm = 0 ∧ ({} : PV).yes.Nodup ∧ ({} : PV).yes ⊆ Q ∧ β v ∉ ({} : PV).yes := by simp
  cases a with
  | raft a =>
    obtain ⟨hp, b, hb, rfl⟩ := step_raft_inv hs
    obtain ⟨v, e, he, hu⟩ := event_of_step hb
    have hpv : ∀ u ∈ Q, (pvAfter s a b u).eterm = 0 ∧ (pvAfter s a b u).yes.Nodup ∧ (pvAfter s a b u).yes ⊆ Q ∧
        β u ∉ (pvAfter s a b u).yes := by
      intro u hu
      unfold pvAfter
      rw [he]
      dsimp only
      split
      · by_cases huv : u = v
        · subst huv; simp [upd]
        · simp only [upd, if_neg huv]; exact h.pv u hu
      · exact h.pv u hu
    obtain ⟨v', n', ms, t, rfl⟩ := Raft.step_tr hb
    have put : n'.role = .follower ∧ n'.term = (s.base.nodes v').term ∧ n'.mcTerm = (s.base.nodes v').mcTerm ∧
        n'.log = (s.base.nodes v').log ∧ n'.saved = (s.base.nodes v').saved → ms = [] →
        Stuck mem Q β { s with base := s.base.put mem v' n' ms, pv := pvAfter s a (s.base.put mem v' n' ms) } := by
      intro hn hms
      refine h.keep (fun u hu => ?_) ?_ rfl hpv
      · by_cases e : u = v'
        · subst e
          show ((s.base.put mem u n' ms).nodes u).role = _ ∧ ((s.base.put mem u n' ms).nodes u).term = _ ∧
            ((s.base.put mem u n' ms).nodes u).mcTerm = _ ∧ ((s.base.put mem u n' ms).nodes u).log = _ ∧
            ((s.base.put mem u n' ms).nodes u).saved = _
          rw [put_nodes_self]; exact hn
        · show ((s.base.put mem v' n' ms).nodes u).role = _ ∧ ((s.base.put mem v' n' ms).nodes u).term = _ ∧
            ((s.base.put mem v' n' ms).nodes u).mcTerm = _ ∧ ((s.base.put mem v' n' ms).nodes u).log = _ ∧
            ((s.base.put mem v' n' ms).nodes u).saved = _
          rw [put_nodes_ne e]; exact ⟨h.role u hu, rfl, rfl, rfl, rfl⟩
      · subst hms
        show s.base.msgs ++ [] = _
        simp
    have no : ∀ (m : Msg) (v k : Nat), s.base.msgs[k]? = some m → v ∈ Q → (∃ m' : Msg, s.base.msgs[k]? = some m' ∧ m'.src.1 ∈ Q) →
        m.toward v = true → False := by
      intro m v k hk hv hm ht
      obtain ⟨m', hk', hq⟩ := hm
      rw [hk] at hk'; cases hk'
      rw [h.msgs m (List.mem_of_getElem? hk) hq v hv] at ht
      cases ht
    cases t with
    | timeout => exact hp.elim
    | preVote => exact hp.elim
    | stepDown hv hr => rw [h.role _ w] at hr; cases hr
    | reqVote hv hk hne => exact (no _ _ _ hk w.1 w.2 (by simpa [Msg.toward] using hne)).elim
    | vote hv hk hto => exact (no _ _ _ hk w.1 w.2 (by simpa [Msg.toward] using hto)).elim
    | ae hv hk hne => exact (no _ _ _ hk w.1 w.2 (by simpa [Msg.toward] using hne)).elim
    | ack hv hk hto => exact (no _ _ _ hk w.1 w.2 (by simpa [Msg.toward] using hto)).elim
    | client hv hr => rw [h.role _ w] at hr; cases hr
    | send hv hr => rw [h.role _ w] at hr; cases hr
    | join hv hp => exact put ⟨h.role _ w, rfl, rfl, rfl, rfl⟩ rfl
    | leave hv => exact put ⟨h.role _ w, rfl, rfl, rfl, rfl⟩ rfl
    | crash hv => exact put ⟨rfl, (h.saved _ w).1, (h.saved _ w).2, rfl, rfl⟩ rfl
  | timer v l1 l2 nf =>
    have hv : v ∈ Q := w
    simp only [step] at hs
    split at hs
    · cases hs
      have hd : demote mem s.base v = s.base := by unfold demote; rw [if_neg (by rw [h.role v hv]; simp)]
      rw [hd]
      have h2 := h.two hv
      unfold beginPreVote
      dsimp only
      split
      · refine h.keep (fun u hu => ⟨h.role u hu, rfl, rfl, rfl, rfl⟩) rfl (by simp) fun u hu => ?_
        by_cases e : u = v
        · subst e; simp only [upd, if_true]; exact h.pv u hu
        · simp only [upd, if_neg e]; exact h.pv u hu
      · rw [if_neg (by omega)]
        refine ⟨h.nodup, h.size, h.sub, h.inQ, h.role, h.saved, h.refused, h.msgs, fun m hm hq => ?_, fun m hm => ?_, fun u hu => ?_⟩
        · rcases List.mem_append.1 hm with hm | hm
          · exact h.reqs m hm hq
          · have e := List.mem_singleton.1 hm
            injection e with e
            subst e
            exact ⟨Nat.le_refl _, rfl, rfl, rfl⟩
        · rcases List.mem_append.1 hm with hm | hm
          · exact h.answers m hm
          · have e := List.mem_singleton.1 hm
            cases e
        · by_cases e : u = v
          · subst e
            simp [upd, hu, (h.inQ u hu).2]
          · simp only [upd, if_neg e]; exact h.pv u hu
    · cases hs
  | elect v noop =>
    simp only [step] at hs
    split at hs
    · rename_i hc
      exact absurd (h.pv v w).1 hc.2.2.1
    · cases hs
  | deliver v k st al nf =>
    obtain ⟨hv, m', hk', hq⟩ := w
    simp only [step] at hs
    split at hs
    · split at hs
      · rename_i m hm
        rw [hm] at hk'
        cases hk'
        split at hs
        · cases hs
          refine ⟨h.nodup, h.size, h.sub, h.inQ, h.role, h.saved, h.refused, h.msgs, fun x hx hq => ?_, fun x hx hc hsrc => ?_, h.pv⟩
          · rcases List.mem_append.1 hx with hx | hx
            · exact h.reqs x hx hq
            · cases List.mem_singleton.1 hx
          · rcases List.mem_append.1 hx with hx | hx
            · exact h.answers x hx hc hsrc
            · have e := List.mem_singleton.1 hx
              injection e with e
              subst e
              have hr := h.reqs m (List.mem_of_getElem? hm) hq
              have hsrc : v = β m.src.1 := hsrc
              have hv' : s.base.nodes (β m.src.1) = s.base.nodes v := by rw [← hsrc]
              exact refused_answer (hv' ▸ h.refused m.src.1 hq) hr.1 hr.2.1 hr.2.2.1 hr.2.2.2
        · cases hs
      · rename_i m hm
        rw [hm] at hk'
        cases hk'
        split at hs
        · rename_i hc
          cases hs
          refine h.keep (fun u hu => ⟨h.role u hu, rfl, rfl, rfl, rfl⟩) rfl rfl fun u hu => ?_
          dsimp only
          by_cases e : u = v
          · subst e
            simp only [upd, if_true]
            refine stuck_tally h hu (h.pv u hu) hq (fun e => ?_) al nf
            exact h.answers m (List.mem_of_getElem? hm) (by rw [hc]; exact hu) (by rw [hc]; exact e)
          · simp only [upd, if_neg e]; exact h.pv u hu
        · cases hs
      · cases hs
    · cases hs

theorem stuck_run {Q : List Nat} {β : Nat → Nat} : ∀ (as : List PAction) {s s' : PSys}, Stuck mem Q β s →
    AllWithin mem Q s as → run mem s as = some s' → Stuck mem Q β s'
  | [], _, _, h, _, hr => by cases hr; exact h
  | a :: as, s, s', h, w, hr => by
    simp only [run, Option.bind_eq_some_iff] at hr
    obtain ⟨s1, h1, h2⟩ := hr
    refine stuck_run as (stuck_step h (w [] a as s rfl rfl) h1) (fun pre b post s2 e hr => ?_) h2
    exact w (a :: pre) b post s2 (by rw [e]; rfl) (by simp only [run, h1]; exact hr)

end

end Verif.PreVote

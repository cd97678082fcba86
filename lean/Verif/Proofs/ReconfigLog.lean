import Verif.Proofs.ReconfigMain
import Verif.Proofs.RaftMain

/- Logs under membership changes: every entry comes from the log of the one leader of its term. -/
namespace Verif.Reconfig
open Verif.Raft (Entry PeerID Role AE LogOK AEok Elected terms termAt upd)

/-- The part of the history that `Raft.LogOK` speaks of. -/
def rh (h : Hist) : Raft.Hist :=
  { elected := h.elected.map fun e => (e.term, e.who, e.voters), lead := h.lead }

theorem rh_elected {h : Hist} {t : Nat} : Elected (rh h) t ↔ ∃ e ∈ h.elected, e.term = t := by
  constructor
  · rintro ⟨c, Q, hm⟩
    obtain ⟨e, he, h⟩ := List.mem_map.mp hm
    cases h
    exact ⟨e, he, rfl⟩
  · rintro ⟨e, he, rfl⟩
    exact ⟨e.who, e.voters, List.mem_map.mpr ⟨e, he, rfl⟩⟩

structure LInv (s : Sys) : Prop where
  leadLog : ∀ v, (s.nodes v).role = .leader → s.hist.lead (s.nodes v).term = (s.nodes v).log
  leadNil : ∀ t, (∀ e ∈ s.hist.elected, e.term ≠ t) → s.hist.lead t = []
  leadOK : ∀ t, LogOK (rh s.hist) (s.hist.lead t)
  logOK : ∀ v, LogOK (rh s.hist) (s.nodes v).log
  aeOK : ∀ m c, .ae m c ∈ s.msgs → ∃ P, AEok (rh s.hist) m P

theorem LInv.init (boot : List Nat) : LInv (init boot) := by
  have hl : ∀ v, ((Reconfig.init boot).nodes v).log = [] ∧ ((Reconfig.init boot).nodes v).role = .follower := by
    intro v
    simp only [Reconfig.init]
    split <;> exact ⟨rfl, rfl⟩
  refine ⟨?_, fun _ _ => rfl, ?_, ?_, ?_⟩
  · intro v h; rw [(hl v).2] at h; cases h
  · intro t i hi; cases hi
  · intro v i hi; rw [(hl v).1] at hi; cases hi
  · intro m c h; cases h

section
variable {boot : List Nat} {s : Sys} {v : Nat} {n' : Node} {out : List Msg}

theorem leader_term (hm : Micro s.msgs v (s.nodes v) n' out) (hr : n'.role = .leader)
    (hr' : (s.nodes v).role = .leader) : n'.term = (s.nodes v).term := by
  by_cases he : n'.mc = (s.nodes v).mc
  · exact (stay_leader hm hr hr' he).2
  · exact (new_change hm hr hr' he).2.1

/-- Leaders' logs only grow. -/
theorem lead_grow (h : Inv boot s) (hm : Micro s.msgs v (s.nodes v) n' out)
    (hl : Logs s.msgs v (s.nodes v) n' out) (L : LInv s) (hu : ∀ t, Unique (s.put v n' out) t) (t : Nat) :
    s.hist.lead t <+: (s.put v n' out).hist.lead t := by
  simp only [Sys.put]
  split
  · rename_i hr
    simp only [upd]
    split
    · rename_i ht
      subst ht
      by_cases hr' : (s.nodes v).role = .leader
      · obtain ⟨new, e, _⟩ := hl.grow hr hr'
        rw [leader_term hm hr hr', L.leadLog v hr', e]
        exact List.prefix_append _ _
      · rw [L.leadNil]
        · exact List.nil_prefix
        · intro e he ht
          have hw := hu n'.term e (put_elected_old he) _ (put_elected_new hr hr') ht rfl
          have := (h.el e he).1
          rw [hw] at this
          have k := (new_elected hm hr hr').2.1
          simp only at this
          omega
    · exact List.prefix_refl _
  · exact List.prefix_refl _

theorem LogOK.later (h : Inv boot s) (hm : Micro s.msgs v (s.nodes v) n' out)
    (hl : Logs s.msgs v (s.nodes v) n' out) (L : LInv s) (hu : ∀ t, Unique (s.put v n' out) t)
    {A : List Entry} (hA : LogOK (rh s.hist) A) : LogOK (rh (s.put v n' out).hist) A := by
  intro i hi
  obtain ⟨h1, h2⟩ := hA i hi
  refine ⟨?_, h2.trans (lead_grow h hm hl L hu _)⟩
  obtain ⟨e, he, ht⟩ := rh_elected.mp h1
  exact rh_elected.mpr ⟨e, put_elected_old he, ht⟩

/-- The log left behind by one event. -/
theorem keep_log (h : Inv boot s) (hm : Micro s.msgs v (s.nodes v) n' out)
    (hl : Logs s.msgs v (s.nodes v) n' out) (L : LInv s) (hu : ∀ t, Unique (s.put v n' out) t) :
    LogOK (rh (s.put v n' out).hist) n'.log := by
  have hup := fun {A} => LogOK.later (A := A) h hm hl L hu
  have hi := h.put hm
  by_cases hr : n'.role = .leader
  · have hnew : ∃ new, n'.log = (s.nodes v).log ++ new ∧ ∀ e ∈ new, e.term = n'.term := by
      by_cases hr' : (s.nodes v).role = .leader
      · exact hl.grow hr hr'
      · obtain ⟨noop, e⟩ := hl.first hr hr'
        exact ⟨_, e, by simp⟩
    obtain ⟨new, e1, e2⟩ := hnew
    have hlead : (s.put v n' out).hist.lead n'.term = n'.log := by
      simp only [Sys.put]
      rw [if_pos hr]
      simp [upd]
    have hel : Elected (rh (s.put v n' out).hist) n'.term := by
      have k := (hi.lead v (by rw [put_self]; exact hr)).2.2.1
      obtain ⟨e, he, _, ht, _⟩ := k
      rw [put_self] at ht
      exact rh_elected.mpr ⟨e, he, ht⟩
    intro i hlt
    by_cases hi' : i < (s.nodes v).log.length
    · have k := hup (L.logOK v) i hi'
      have ee : n'.log[i] = (s.nodes v).log[i] := by
        simp only [e1]
        rw [List.getElem_append_left hi']
      rw [ee, e1, List.take_append_of_le_length (by omega)]
      exact k
    · have ht : n'.log[i].term = n'.term := by
        apply e2
        have : n'.log[i] = new[i - (s.nodes v).log.length]'(by rw [e1, List.length_append] at hlt; omega) := by
          simp only [e1]
          rw [List.getElem_append_right (by omega)]
        rw [this]
        exact List.getElem_mem _
      rw [ht]
      exact ⟨hel, by show _ <+: (s.put v n' out).hist.lead n'.term; rw [hlead]; exact List.take_prefix _ _⟩
  · rcases hl.other hr with e | ⟨m, c, hmem, hup', hgap⟩
    · rw [e]; exact hup (L.logOK v)
    · obtain ⟨P, hP⟩ := L.aeOK m c hmem
      rcases Raft.handleAE_log (n := { log := (s.nodes v).log }) hP (L.leadOK m.term) (L.logOK v) hup' hgap with h6 | h6
      · rw [h6.1]; exact hup (L.logOK v)
      · rw [h6.1]
        exact hup ((L.leadOK m.term).prefix ((List.take_prefix _ _).trans hP.2.1))

theorem LInv.put (h : Inv boot s) (hm : Micro s.msgs v (s.nodes v) n' out)
    (hl : Logs s.msgs v (s.nodes v) n' out) (L : LInv s) (hu : ∀ t, Unique (s.put v n' out) t) :
    LInv (s.put v n' out) := by
  have hup := fun {A} => LogOK.later (A := A) h hm hl L hu
  have hlog := keep_log h hm hl L hu
  have hi := h.put hm
  refine ⟨?_, ?_, ?_, ?_, ?_⟩
  · intro x hx
    by_cases hxv : x = v
    · subst hxv
      rw [put_self] at hx ⊢
      simp only [Sys.put]
      rw [if_pos hx]
      simp [upd]
    · obtain ⟨e, he, ew, et, _⟩ := (hi.lead x hx).2.2.1
      have hno : ¬ (n'.role = .leader ∧ n'.term = ((s.put v n' out).nodes x).term) := by
        rintro ⟨hr, ht⟩
        obtain ⟨e', he', ew', et', _⟩ := (hi.lead v (by rw [put_self]; exact hr)).2.2.1
        rw [put_self] at et'
        have := hu n'.term e he e' he' (by omega) et'
        rw [ew, ew'] at this
        exact hxv (congrArg Prod.fst this)
      rw [put_other _ _ _ hxv] at hx hno ⊢
      rw [← L.leadLog x hx]
      simp only [Sys.put]
      split
      · rename_i hr
        simp only [upd]
        rw [if_neg (fun ht => hno ⟨hr, ht.symm⟩)]
      · rfl
  · intro t ht
    have h1 := L.leadNil t (fun e he => ht e (put_elected_old he))
    simp only [Sys.put]
    split
    · rename_i hr
      obtain ⟨e, he, _, et, _⟩ := (hi.lead v (by rw [put_self]; exact hr)).2.2.1
      rw [put_self] at et
      simp only [upd]
      rw [if_neg]
      · exact h1
      · intro hh; exact ht e he (by omega)
    · exact h1
  · intro t
    have : (s.put v n' out).hist.lead t = s.hist.lead t ∨ (s.put v n' out).hist.lead t = n'.log := by
      simp only [Sys.put]
      split
      · simp only [upd]
        split
        · exact Or.inr rfl
        · exact Or.inl rfl
      · exact Or.inl rfl
    rcases this with e | e
    · rw [e]; exact hup (L.leadOK t)
    · rw [e]; exact hlog
  · intro x
    rw [put_nodes]
    split
    · exact hlog
    · exact hup (L.logOK x)
  · intro m c hmem
    rcases mem_put_msgs.mp hmem with ho | ho
    · obtain ⟨P, p1, p2, p3⟩ := L.aeOK m c ho
      refine ⟨P, ?_, p2.trans (lead_grow h hm hl L hu _), p3⟩
      obtain ⟨e, he, ht⟩ := rh_elected.mp p1
      exact rh_elected.mpr ⟨e, put_elected_old he, ht⟩
    · obtain ⟨hr, hn, beg, cnt, hb, e⟩ := hl.sent m c ho
      simp only [mkAE, Msg.ae.injEq] at e
      obtain ⟨rfl, rfl⟩ := e
      have hlead : (s.put v n' out).hist.lead (s.nodes v).term = (s.nodes v).log := by
        simp only [Sys.put]
        rw [if_pos hr, hn]
        simp [upd]
      obtain ⟨e, he, _, et, _⟩ := (hi.lead v (by rw [put_self]; exact hr)).2.2.1
      rw [put_self, hn] at et
      refine ⟨(s.nodes v).log, rh_elected.mpr ⟨e, he, et⟩, ?_, rfl, ?_, ?_, rfl⟩
      · show _ <+: (s.put v n' out).hist.lead (s.nodes v).term
        rw [hlead]; exact List.prefix_refl _
      · simp only; split <;> omega
      · simp only
        split
        · rename_i h0; subst h0; simp
        · exact List.take_prefix _ _

end

/-- What was applied comes from an explained log. -/
def Explained (s : Sys) : Prop :=
  ∀ p ∈ s.hist.applied, ∃ A, LogOK (rh s.hist) A ∧ A[p.2.1 - 1]? = some p.2.2

theorem mem_newlyApplied {n n' : Node} {p : Nat × Entry} (h : p ∈ newlyApplied n n') :
    n'.log[p.1 - 1]? = some p.2 := by
  simp only [newlyApplied] at h
  obtain ⟨⟨e, i⟩, hq, rfl⟩ := List.mem_map.mp h
  have hq := List.mem_of_mem_drop hq
  rw [List.mk_mem_zipIdx_iff_le_and_getElem?_sub] at hq
  obtain ⟨h1, h2⟩ := hq
  rw [List.getElem?_take] at h2
  split at h2
  · exact h2
  · cases h2

theorem LInv.later {boot : List Nat} (hb : boot.Nodup) {bs : List Action} {s s' : Sys} (hs : Inv boot s)
    (L : LInv s) (E : Explained s) (h : Reconfig.run s bs = some s') (hcf : ∀ c ∈ s'.hist.changes, Careful c) :
    LInv s' ∧ Explained s' ∧ ∀ A, LogOK (rh s.hist) A → LogOK (rh s'.hist) A :=
  (run_ind (P := fun t => Inv boot t ∧ ((∀ c ∈ t.hist.changes, Careful c) →
      LInv t ∧ Explained t ∧ ∀ A, LogOK (rh s.hist) A → LogOK (rh t.hist) A))
    (fun _ _ _ _ ht hm hl => by
      refine ⟨ht.1.put hm, fun hc => ?_⟩
      have k := ht.2 (fun c hcm => hc c (put_changes_old hcm))
      have hu := fun t => (unique_all (ht.1.put hm) hb hc t).1
      refine ⟨k.1.put ht.1 hm hl hu, ?_, fun A hA => LogOK.later ht.1 hm hl k.1 hu (k.2.2 A hA)⟩
      intro p hp
      rcases List.mem_append.mp hp with hp | hp
      · obtain ⟨A, hA, hi⟩ := k.2.1 p hp
        exact ⟨A, LogOK.later ht.1 hm hl k.1 hu hA, hi⟩
      · obtain ⟨q, hq, rfl⟩ := List.mem_map.mp hp
        exact ⟨_, keep_log ht.1 hm hl k.1 hu, mem_newlyApplied hq⟩)
    (fun _ v ht hc => ⟨(ht.1.cand v hc).1, (ht.1.cand v hc).2.1⟩) bs
    ⟨hs, fun _ => ⟨L, E, fun _ hA => hA⟩⟩ h).2 hcf

end Verif.Reconfig

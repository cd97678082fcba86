import Verif.Proofs.RaftSafe
import Verif.Proofs.RaftFit
/-
Every careful step keeps `Inv2`.
-/
namespace Verif.Raft

/-- The side conditions under which committed entries are safe (see C20). -/
def Careful (s : Sys) : Action → Prop
  | .send v beg cnt => cnt = 0 ∨ beg - 1 + cnt = (s.nodes v).log.length
  | .deliver v k _ _ _ _ => ∀ m, s.msgs[k]? = some (.ack m) → (s.nodes v).role = .leader →
      m.term = (s.nodes v).term →
      m.aeTerm = m.term ∧ ∀ x ∈ (s.nodes v).peers, x.1.1 = m.src.1 → x.1 = m.src
  | _ => True

section
variable {mem : List Nat} {s : Sys} {v : Nat} {n' : Node} {ms : List Msg}

/-- Applying what is committed only saves a later term. -/
theorem saved_commit (n : Node) (h : n.saved.term ≤ n.term) :
    n.saved.term ≤ (commitWhatWeCan n).saved.term := by
  unfold commitWhatWeCan; split
  · exact h
  · exact Nat.le_refl _

/-- A step that leaves the log alone. -/
theorem Good2.same (I2 : Inv2 mem s) (ht : (s.nodes v).saved.term ≤ n'.saved.term)
    (hi : (s.nodes v).inc < n'.inc ∨ (s.nodes v).inc = n'.inc ∧ (s.nodes v).term ≤ n'.term) (hlog : n'.log = (s.nodes v).log)
    (hack : ∀ m, Msg.ack m ∈ ms → m.src.1 = v ∧ (m.term = m.aeTerm → Elected s.hist m.term ∧
      m.term = n'.term ∧ m.term ≤ n'.saved.term ∧ ackPos m ≤ (s.hist.lead m.term).length ∧
      (s.hist.lead m.term).take (ackPos m) <+: n'.log))
    (hae : ∀ m, Msg.ae m ∈ ms → At s m.term m.terms.length ∧
      (m.entries = [] ∨ m.prev + m.entries.length = m.terms.length))
    (hreq : ∀ r, Msg.reqVote r ∈ ms → r.src = (v, n'.inc) ∧ r.term = n'.term ∧
      r.lastIdx = n'.log.length ∧ r.lastTerm = lastTerm n'.log)
    (hvote : ∀ m, Msg.vote m ∈ ms → Counted m → ∃ r, Msg.reqVote r ∈ s.msgs ∧ m.src.1 = v ∧
      m.cand = r.src ∧ m.term = r.term ∧ r.src.1 ≠ v ∧
      ((s.nodes v).log = [] ∨ lastTerm (s.nodes v).log < r.lastTerm ∨
        lastTerm (s.nodes v).log = r.lastTerm ∧ (s.nodes v).log.length ≤ r.lastIdx)) :
    Good2 mem s v n' ms := by
  refine ⟨hi, ?_, ?_, fun _ => hlog, ?_, hack, hae, hreq, hvote⟩
  · intro e he; rw [hlog] at he; exact Nat.le_trans (I2.logTerm v e he) ht
  · rw [hlog]; exact I2.logMono v
  · intro t i _ _ h; rw [hlog]; exact Or.inl h

/-- A step that appends entries of the current term. -/
theorem Good2.grow (I : Inv1 mem s) (I2 : Inv2 mem s) (ht : (s.nodes v).term ≤ n'.term)
    (hi : (s.nodes v).inc = n'.inc) (hst : (s.nodes v).saved.term ≤ n'.saved.term)
    (hsv : n'.term ≤ n'.saved.term) (hr : n'.role = .leader) {new : List Entry}
    (hlog : n'.log = (s.nodes v).log ++ new) (hnew : ∀ e ∈ new, e.term = n'.term) :
    Good2 mem s v n' [] := by
  have hle := I.savedTerm v
  refine ⟨Or.inr ⟨hi, ht⟩, ?_, ?_, ?_, ?_, by simp, by simp, by simp, by simp⟩
  · intro e he
    rw [hlog, List.mem_append] at he
    rcases he with h | h
    · exact Nat.le_trans (I2.logTerm v e h) hst
    · rw [hnew e h]; exact hsv
  · rw [hlog]; unfold Mono; rw [List.pairwise_append]
    refine ⟨I2.logMono v, ?_, ?_⟩
    · rw [List.pairwise_iff_getElem]
      intro i j h1 h2 _
      rw [hnew _ (List.getElem_mem h1), hnew _ (List.getElem_mem h2)]
      exact Nat.le_refl _
    · intro a ha b hb
      rw [hnew b hb]; exact Nat.le_trans (I2.logTerm v a ha) (Nat.le_trans hle ht)
  · intro hx; rw [hr] at hx; cases hx
  · intro t i _ _ h; rw [hlog]; exact Or.inl (h.trans (List.prefix_append _ _))

/-- What both logs share survives `handleAppendEntries`. -/
theorem keep_AE {h : Hist} {n : Node} {m : AE} {P X : List Entry} (hP : AEok h m P)
    (hlead : LogOK h (h.lead m.term)) (hn : LogOK h n.log) {log : List Entry}
    (hu : updateLog n.log m ((terms n.log).isPrefixOf m.terms) (commonPrefix m.terms (terms n.log)) = some log)
    (hgap : (terms n.log).isPrefixOf m.terms = false → m.prev ≤ commonPrefix m.terms (terms n.log))
    (hne : commonPrefix m.terms (terms n.log) ≠ m.terms.length)
    (h1 : X <+: n.log) (h2 : X <+: h.lead m.term) : X <+: log := by
  rcases handleAE_log hP hlead hn hu hgap with ⟨rfl, _⟩ | ⟨rfl, hlt⟩
  · exact h1
  · obtain ⟨_, e2, e3, _⟩ := hP
    by_cases hlen : X.length ≤ P.length
    · have hXP : X <+: P := prefix_of_prefix_le h2 e2 hlen
      have hc := prefix_le_commonPrefix (terms X) m.terms (terms n.log) (by rw [e3]; exact terms_prefix hXP)
        (terms_prefix h1)
      rw [terms_length] at hc
      rw [show X = P.take X.length by rw [take_prefix_of_prefix hXP (Nat.le_refl _), List.take_length]]
      rw [show P.take X.length = (P.take (m.prev + m.entries.length)).take X.length by
        rw [List.take_take]; congr 1; omega]
      exact List.take_prefix _ _
    · exfalso
      have hPX : P <+: X := prefix_of_prefix_le e2 h2 (by omega)
      have hc := prefix_le_commonPrefix (terms P) m.terms (terms n.log) (by rw [e3]; exact List.prefix_refl _)
        (terms_prefix (hPX.trans h1))
      have hc2 := commonPrefix_le_left m.terms (terms n.log)
      rw [e3, terms_length, ← e3] at hc2
      rw [terms_length] at hc
      rw [e3, terms_length, ← e3] at hne
      omega

/-- The common part with the message is a prefix of the leader's log. -/
theorem lcp_take {h : Hist} {n : Node} {m : AE} {P : List Entry} (hP : AEok h m P)
    (hlead : LogOK h (h.lead m.term)) (hn : LogOK h n.log) :
    commonPrefix m.terms (terms n.log) ≤ P.length ∧
    commonPrefix m.terms (terms n.log) ≤ n.log.length ∧
    n.log.take (commonPrefix m.terms (terms n.log)) = P.take (commonPrefix m.terms (terms n.log)) := by
  obtain ⟨_, h2, h3, _⟩ := hP
  have hl1 := commonPrefix_le_left m.terms (terms n.log)
  have hl2 := commonPrefix_le_right m.terms (terms n.log)
  rw [h3, terms_length, ← h3] at hl1
  rw [terms_length] at hl2
  refine ⟨hl1, hl2, LogOK.take_eq hn (hlead.prefix h2) hl2 hl1 ?_⟩
  rw [← h3]; exact (commonPrefix_take _ _).symm

theorem good2_of_tr {a : Action} (F : Inv0 s) (I : Inv1 mem s) (I2 : Inv2 mem s) (hc : Careful s a)
    (h : Tr mem s a v n' ms) : Good2 mem s v n' ms := by
  have gst := (good1_of_tr I h).st
  cases h with
  | timeout hv hr hb =>
    rename_i noop
    rcases beginElection_eq hv hr hb with ⟨h1, h2, rfl⟩ | ⟨h1, rfl, rfl⟩
    · have e := becomeLeader_eq h2
      exact Good2.grow I I2 (by omega) (by omega) gst (by omega) e.2.1 e.2.2.2.2.2.2.2.2.2.1 (by simp)
    · refine Good2.same I2 gst (Or.inr ⟨rfl, by dsimp only; omega⟩) rfl (by simp) (by simp) ?_ (by simp)
      intro r hr
      simp only [List.mem_singleton, Msg.reqVote.injEq] at hr
      subst hr; exact ⟨rfl, rfl, rfl, rfl⟩
  | preVote hv hr =>
    exact Good2.same I2 gst (Or.inr ⟨rfl, Nat.le_refl _⟩) rfl (by simp) (by simp) (by simp) (by simp)
  | stepDown hv hr =>
    have e := becomeFollower_eq (n := s.nodes v) (mc := 0) (sv := true) (Nat.le_refl _)
    exact Good2.same I2 gst (by omega) e.2.2.1 (by simp) (by simp) (by simp) (by simp)
  | reqVote hv hk hne =>
    rename_i k noop st nf fo m
    have e := handleRequestVote_eq v (s.nodes v) m st
    dsimp only at e
    obtain ⟨e1, e2, e3, e4, e5, e6, e7, e8, e9, e10, e11⟩ := e
    refine Good2.same I2 gst (Or.inr ⟨e9.inc.symm, e9.term⟩) e5 (by simp) (by simp) (by simp) ?_
    intro w hw hcw
    simp only [List.mem_singleton, Msg.vote.injEq] at hw
    subst hw
    obtain ⟨k1, k2, k3⟩ := e11 hcw.1
    exact ⟨m, List.mem_of_getElem? hk, by rw [e1], e2, by rw [e4, k1], hne, k3⟩
  | vote hv hk hto ht =>
    rename_i k noop st nf fo m
    have c := countVote_eq v (s.nodes v) m
    rcases tallyVote_cases ht with rfl | ⟨T, mc, sv, hT, n1, rfl, hn1⟩ | ⟨hr, hterm, hg, h | ⟨hb, hq⟩⟩
    · exact Good2.same I2 gst (Or.inr ⟨rfl, Nat.le_refl _⟩) rfl (by simp) (by simp) (by simp) (by simp)
    · have h0 : n1.term = (s.nodes v).term ∧ n1.log = (s.nodes v).log ∧ n1.inc = (s.nodes v).inc := by
        rcases hn1 with ⟨rfl, _⟩ | ⟨rfl, _⟩
        · exact ⟨rfl, rfl, rfl⟩
        · exact ⟨c.2.1, c.2.2.1, c.2.2.2.1⟩
      have hT' : n1.term ≤ T := by omega
      have e := becomeFollower_eq (n := n1) (mc := mc) (sv := sv) hT'
      exact Good2.same I2 gst (by omega) (by rw [e.2.2.1, h0.2.1]) (by simp) (by simp) (by simp) (by simp)
    · subst h
      exact Good2.same I2 gst (by omega) c.2.2.1 (by simp) (by simp) (by simp) (by simp)
    · have e := becomeLeader_eq hb
      exact Good2.grow I I2 (by omega) (by omega) gst (by omega) e.2.1 (by rw [← c.2.2.1]; exact e.2.2.2.2.2.2.2.2.2.1) (by simp)
  | ae hv hk hne =>
    rename_i k noop st nf fo m
    have hmem : Msg.ae m ∈ s.msgs := List.mem_of_getElem? hk
    obtain ⟨P, hP⟩ := I.aeOK m hmem
    have hu := up_handleAE v (s.nodes v) m
    have hlast := I2.aeLast m hmem
    have hfull := I2.aeFull m hmem
    have hPl : P.length = m.terms.length := by rw [hP.2.2.1, terms_length]
    have hmc : m.mcTerm = m.term := F.msg _ hmem
    have hfit : Fit { s.nodes v with commit := max (s.nodes v).commit (min m.commit (commonPrefix m.terms (terms (s.nodes v).log))) } :=
      (F.node v).of_eq rfl rfl rfl rfl (Or.inl rfl)
    have hle0 := I.savedTerm v
    rcases handleAE_cases v (s.nodes v) m with ⟨_, h⟩ | ⟨n1, rej, ns, k', h, _, h2⟩
    · rw [h] at gst ⊢
      exact Good2.same I2 gst (Or.inr ⟨rfl, Nat.le_refl _⟩) rfl (by simp) (by simp) (by simp) (by simp)
    · have c := commitWhatWeCan_eq n1
      obtain ⟨hl1, hl2, hl3⟩ := lcp_take hP (I.leadOK _) (I.logOK v)
      have hPlead := hP.2.1.length_le
      -- the part of the log the leader may count, when the common index is reported
      have hcommon : (s.hist.lead m.term).take (commonPrefix m.terms (terms (s.nodes v).log)) <+: (s.nodes v).log := by
        rw [take_prefix_of_prefix hP.2.1 hl1, ← hl3]; exact List.take_prefix _ _
      have hone : ∀ w, Msg.ack w ∈ (handleAppendEntries v (s.nodes v) m).2.toList.map Msg.ack →
          w = mkAck v n1 m rej ns k' := by
        intro w hw
        rw [h] at hw
        simpa using hw
      have hnoae : ∀ w, Msg.ae w ∈ (handleAppendEntries v (s.nodes v) m).2.toList.map Msg.ack → False := by
        intro w hw; simp at hw
      have hnoreq : ∀ w, Msg.reqVote w ∈ (handleAppendEntries v (s.nodes v) m).2.toList.map Msg.ack → False := by
        intro w hw; simp at hw
      have hnovote : ∀ w, Msg.vote w ∈ (handleAppendEntries v (s.nodes v) m).2.toList.map Msg.ack → False := by
        intro w hw; simp at hw
      rcases h2 with ⟨hlt, hn1, hrej, hk'⟩ | ⟨hle, hn1, hk', hwhy⟩ | ⟨hle, hrej, log, hup, hgap, hne2, hk', hn1⟩
      · refine Good2.same I2 gst (Or.inr ⟨hu.inc.symm, hu.term⟩) ?_ ?_ (fun w hw => (hnoae w hw).elim)
          (fun w hw => (hnoreq w hw).elim) (fun w hw => (hnovote w hw).elim)
        · rw [h]; rw [c.2.2.1, hn1]
        · intro w hw
          rw [hone w hw]
          refine ⟨rfl, fun ht => ?_⟩
          exfalso
          simp only [mkAck, hn1] at ht
          omega
      · have f := follow_eq (n := { s.nodes v with commit := max (s.nodes v).commit (min m.commit (commonPrefix m.terms (terms (s.nodes v).log))) }) hle
        have hfs := (f.2.2.2.2.2.2.saved (I.savedTerm v) (I.savedMc v)).2.2.1
        have hsv : m.term ≤ (handleAppendEntries v (s.nodes v) m).1.saved.term := by
          rw [h]
          refine Nat.le_trans ?_ (saved_commit n1 (by rw [hn1]; exact hfs))
          rw [hn1]; exact follow_saved hfit hmc hle
        have hlog1 : n1.log = (s.nodes v).log := by rw [hn1, f.2.2.1]
        have hterm1 : n1.term = m.term := by rw [hn1, f.2.1]
        refine Good2.same I2 gst (Or.inr ⟨hu.inc.symm, hu.term⟩) ?_ ?_ (fun w hw => (hnoae w hw).elim)
          (fun w hw => (hnoreq w hw).elim) (fun w hw => (hnovote w hw).elim)
        · rw [h]; rw [c.2.2.1, hlog1]
        · intro w hw
          rw [hone w hw]
          refine ⟨rfl, fun _ => ?_⟩
          have e0 : (handleAppendEntries v (s.nodes v) m).1.term = m.term := by rw [h]; rw [c.2.1, hterm1]
          have e1 : (handleAppendEntries v (s.nodes v) m).1.log = (s.nodes v).log := by rw [h]; rw [c.2.2.1, hlog1]
          rw [e0, e1]
          have e2 : (mkAck v n1 m rej ns k').term = m.term := hterm1
          rw [e2]
          refine ⟨hP.1, rfl, hsv, ?_⟩
          -- an accepting answer: the whole log is the leader's
          have acc : (s.nodes v).log <+: s.hist.lead m.term →
              (s.nodes v).log.length ≤ (s.hist.lead m.term).length ∧
                (s.hist.lead m.term).take (s.nodes v).log.length <+: (s.nodes v).log := by
            intro hx
            refine ⟨hx.length_le, ?_⟩
            rw [take_prefix_of_prefix hx (Nat.le_refl _), List.take_length]
            exact List.prefix_refl _
          cases hrj : rej with
          | true =>
            have e3 : ackPos (mkAck v n1 m true ns k') = commonPrefix m.terms (terms (s.nodes v).log) := by
              simp [ackPos, mkAck, hk']
            rw [e3]
            exact ⟨by omega, hcommon⟩
          | false =>
            have e3 : ackPos (mkAck v n1 m false ns k') = (s.nodes v).log.length := by
              simp [ackPos, mkAck, hlog1]
            rw [e3]
            apply acc
            rcases hwhy with hx | hx | ⟨hx, hgap, hent, hneq⟩
            · rw [hrj] at hx; cases hx
            · -- the follower has all of the message's log; what follows has the same term
              rw [hx] at hl2 hl3
              have hPlog : P <+: (s.nodes v).log := by
                rw [← hPl, List.take_length] at hl3
                rw [← hl3]; exact List.take_prefix _ _
              have hpos : 0 < (s.nodes v).log.length := by have := hlast.1; omega
              obtain ⟨_, hw2⟩ := (I.logOK v).whole hpos
              have hlt1 : lastTerm (s.nodes v).log ≤ m.term := by
                have e4 : lastTerm (s.nodes v).log = ((s.nodes v).log[(s.nodes v).log.length - 1]).term :=
                  (termAt_eq (by omega) (Nat.le_refl _)).2 rfl
                rw [e4]
                exact Nat.le_trans (I2.logTerm v _ (List.getElem_mem _)) (Nat.le_trans hle0 hle)
              have hlt2 : m.term ≤ lastTerm (s.nodes v).log := by
                have e5 := lastTerm_mono (I2.logMono v) hlast.1 hl2
                have e6 : termAt (s.nodes v).log m.terms.length = m.term := by
                  rw [termAt_prefix hPlog (by omega), ← hlast.2.2]
                  have := termAt_prefix hP.2.1 (i := m.terms.length) (by omega)
                  rw [hlast.2.2] at this ⊢
                  exact this.symm
                omega
              have : lastTerm (s.nodes v).log = m.term := by omega
              rwa [this] at hw2
            · unfold updateLog at hx
              split at hx
              · rename_i hext
                have hpre : terms (s.nodes v).log <+: m.terms := List.isPrefixOf_iff_prefix.1 hext
                have h3 := prefix_le_commonPrefix (terms (s.nodes v).log) m.terms (terms (s.nodes v).log) hpre (List.prefix_refl _)
                rw [terms_length] at h3
                have h4 : commonPrefix m.terms (terms (s.nodes v).log) = (s.nodes v).log.length := by omega
                rw [h4, List.take_length] at hl3
                rw [hl3]; exact (List.take_prefix _ _).trans hP.2.1
              · split at hx
                · rename_i hsmall
                  exfalso
                  rcases hfull with h5 | h5
                  · exact hent h5
                  · omega
                · cases hx
      · have f := follow_eq (n := { s.nodes v with commit := max (s.nodes v).commit (min m.commit (commonPrefix m.terms (terms (s.nodes v).log))) }) hle
        have hfs := (f.2.2.2.2.2.2.saved (I.savedTerm v) (I.savedMc v)).2.2.1
        have hsv : m.term ≤ (handleAppendEntries v (s.nodes v) m).1.saved.term := by
          rw [h]
          refine Nat.le_trans ?_ (saved_commit n1 (by rw [hn1]; exact hfs))
          rw [hn1]; exact follow_saved hfit hmc hle
        have e0 : (handleAppendEntries v (s.nodes v) m).1.term = m.term := by
          rw [h]; rw [c.2.1, hn1]; exact f.2.1
        have e1 : (handleAppendEntries v (s.nodes v) m).1.log = log := by rw [h]; rw [c.2.2.1, hn1]
        have erole : (handleAppendEntries v (s.nodes v) m).1.role = .follower := by
          rw [h]; rw [c.1, hn1]; exact f.1
        have hlogP : log <+: P := by
          rcases handleAE_log hP (I.leadOK _) (I.logOK v) hup hgap with ⟨rfl, h6⟩ | ⟨rfl, _⟩
          · exact h6
          · exact List.take_prefix _ _
        have hlead : log <+: s.hist.lead m.term := hlogP.trans hP.2.1
        refine ⟨Or.inr ⟨hu.inc.symm, hu.term⟩, ?_, ?_, ?_, ?_, ?_, (fun w hw => (hnoae w hw).elim),
          (fun w hw => (hnoreq w hw).elim), (fun w hw => (hnovote w hw).elim)⟩
        · rw [e1]
          intro e he
          refine Nat.le_trans ?_ hsv
          obtain ⟨c1, Q1, hel⟩ := hP.1
          have hlst := (I.leadLast _ ⟨c1, Q1, hel⟩)
          have he2 : e ∈ s.hist.lead m.term := hlead.subset he
          obtain ⟨i, hi, rfl⟩ := List.mem_iff_getElem.1 he2
          have e7 := lastTerm_mono (I2.leadMono m.term) (show 1 ≤ i + 1 by omega) (show i + 1 ≤ _ by omega)
          rw [hlst.2] at e7
          have e8 : termAt (s.hist.lead m.term) (i + 1) = ((s.hist.lead m.term)[i]).term :=
            (termAt_eq (by omega) (by omega)).2 rfl
          omega
        · rw [e1]; exact (I2.leadMono m.term).prefix hlead
        · intro hx; rw [erole] at hx; cases hx
        · intro t i ha hAt hX
          rw [e1]
          have ht := ha.term I I2
          have hX2 : (s.hist.lead t).take i <+: s.hist.lead m.term ∨ Dead mem s t i := by
            rcases Nat.eq_or_lt_of_le (Nat.le_trans ht (Nat.le_trans hle0 hle)) with heq | hlt
            · left; rw [heq]; exact List.take_prefix _ _
            · exact I2.A t _ i hP.1 hlt hAt
          rcases hX2 with hX2 | hX2
          · left; exact keep_AE hP (I.leadOK _) (I.logOK v) hup hgap hne2 hX hX2
          · exact Or.inr hX2
        · intro w hw
          rw [hone w hw]
          refine ⟨rfl, fun _ => ?_⟩
          have e2 : (mkAck v n1 m rej ns k').term = m.term := by
            show n1.term = m.term
            rw [hn1]; exact f.2.1
          rw [e0, e1, e2]
          have e3 : ackPos (mkAck v n1 m rej ns k') = log.length := by
            simp [ackPos, mkAck, hrej, hn1]
          rw [e3]
          refine ⟨hP.1, rfl, hsv, hlead.length_le, ?_⟩
          rw [take_prefix_of_prefix hlead (Nat.le_refl _), List.take_length]
          exact List.prefix_refl _
  | ack hv hk hto =>
    rename_i k noop st nf fo m
    rcases handleAck_cases mem v (s.nodes v) m nf fo with ⟨mc, hlt, h, _⟩ | h | ⟨hr, hterm, x, _, h | h⟩ <;> rw [h] at gst ⊢
    · have e := becomeFollower_eq (n := s.nodes v) (mc := mc) (sv := true) (Nat.le_of_lt hlt)
      exact Good2.same I2 gst (by omega) e.2.2.1 (by simp) (by simp) (by simp) (by simp)
    · exact Good2.same I2 gst (Or.inr ⟨rfl, Nat.le_refl _⟩) rfl (by simp) (by simp) (by simp) (by simp)
    · exact Good2.same I2 gst (Or.inr ⟨rfl, Nat.le_refl _⟩) rfl (by simp) (by simp) (by simp) (by simp)
    · have e := leaderAdvance_eq mem { s.nodes v with peers := setMatch (s.nodes v).peers m.src x } nf
      exact Good2.same I2 gst (Or.inr ⟨e.2.2.2.2.2.inc.symm, e.2.2.2.2.2.term⟩) e.2.2.1 (by simp) (by simp) (by simp) (by simp)
  | client hv hr =>
    rename_i cmds
    have e : (replicateBatch mem (s.nodes v) cmds).log =
        (s.nodes v).log ++ cmds.map (fun c => ⟨(s.nodes v).term, c⟩) ∧
        (replicateBatch mem (s.nodes v) cmds).role = .leader ∧
        (replicateBatch mem (s.nodes v) cmds).term = (s.nodes v).term ∧
        (replicateBatch mem (s.nodes v) cmds).inc = (s.nodes v).inc := by
      unfold replicateBatch; dsimp only; split
      · have c := commitWhatWeCan_eq { s.nodes v with
          log := (s.nodes v).log ++ cmds.map (fun c => (⟨(s.nodes v).term, c⟩ : Entry)),
          commit := ((s.nodes v).log ++ cmds.map (fun c => (⟨(s.nodes v).term, c⟩ : Entry))).length }
        exact ⟨c.2.2.1, c.1.trans hr, c.2.1, c.2.2.2.1⟩
      · exact ⟨rfl, hr, rfl, rfl⟩
    have hsv : (s.nodes v).term ≤ (s.nodes v).saved.term := by
      obtain ⟨Q, hQ⟩ := I.leaderEl v hr
      exact (I.elSaved _ _ _ hQ).1
    refine Good2.grow I I2 (by omega) (by omega) gst (by omega) e.2.1 e.1 ?_
    intro x hx
    rw [List.mem_map] at hx
    obtain ⟨c, _, rfl⟩ := hx
    exact e.2.2.1.symm
  | send hv hr hcnt =>
    rename_i beg cnt
    refine Good2.same I2 gst (Or.inr ⟨rfl, Nat.le_refl _⟩) rfl (by simp) ?_ (by simp) (by simp)
    intro m hm
    simp only [List.mem_singleton, Msg.ae.injEq] at hm
    subst hm
    have hll := I.leadLog v hr
    obtain ⟨Q, hQ⟩ := I.leaderEl v hr
    have hlst := I.leadLast _ ⟨_, _, hQ⟩
    refine ⟨?_, ?_⟩
    · show At s (s.nodes v).term (terms (s.nodes v).log).length
      rw [terms_length, ← hll]
      exact ⟨List.length_pos_iff.2 hlst.1, Nat.le_refl _, hlst.2⟩
    · simp only [Careful] at hc
      unfold mkAE
      dsimp only
      by_cases h0 : cnt = 0
      · left; rw [h0, List.take_zero]
      · right
        rw [if_neg h0, terms_length, List.length_take, List.length_drop]
        omega
  | join hv =>
    exact Good2.same I2 gst (Or.inr ⟨rfl, Nat.le_refl _⟩) rfl (by simp) (by simp) (by simp) (by simp)
  | leave hv =>
    exact Good2.same I2 gst (Or.inr ⟨rfl, Nat.le_refl _⟩) rfl (by simp) (by simp) (by simp) (by simp)
  | crash hv =>
    exact Good2.same I2 gst (Or.inl (by simp [restart])) rfl (by simp) (by simp) (by simp) (by simp)

end

theorem inv2_init (mem : List Nat) : Inv2 mem {} := by
  constructor <;> intros <;> simp_all [Mono, Elected, Acked]

end Verif.Raft

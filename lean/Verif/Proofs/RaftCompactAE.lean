import Verif.Proofs.RaftCompactGrow
/-
A compacted follower's answer to AppendEntries and to snapshots keeps the invariants of the
Raft model.
-/
namespace Verif.RaftCompact
open Verif.Raft hiding run step receive restart

/-- A node with a compacted log is in order. -/
structure WF (h : Hist) (n : CNode) : Prop where
  base : n.base ≤ n.kv.length
  kv : n.kv <+: (full n).log
  sv : n.saved.applied = n.kv.length
  baseT : BaseOK h n.base n.baseTerm (full n).log

section
variable {mem : List Nat} {s : Sys} {v : Nat} {n : CNode} {ms : List Msg}

theorem WF.put {n' : Node} (I : Invs mem s) (G : Goods mem s v n' ms) (h : WF s.hist n) :
    WF (s.put mem v n' ms).hist n := by
  refine ⟨h.base, h.kv, h.sv, ?_⟩
  rcases h.baseT with h0 | ⟨h1, h2⟩
  · exact Or.inl h0
  · exact Or.inr ⟨h1.put, h2.trans (lead_prefix I.i1 G.g1 _)⟩

/-- Taking over the result of a handler. -/
theorem back_wf {r : Node} (hw : WF s.hist n) (G : Goods mem s v r ms) (hk : n.kv <+: r.log)
    (ha : n.kv.length ≤ r.applied) (hs : r.saved.applied = r.applied) :
    full (back n r) = r ∧ WF s.hist (back n r) := by
  have hl : r.applied ≤ r.log.length := Nat.le_trans G.g3.saved.2.1 G.g3.com.len
  obtain ⟨e1, e2⟩ := full_back hw.base hk ha hl
  refine ⟨e1, ?_⟩
  have hlen : (back n r).kv.length = r.applied := by rw [e2]; simp; omega
  refine ⟨?_, ?_, ?_, ?_⟩
  · rw [hlen]; have := hw.base; show n.base ≤ _; omega
  · rw [e1, e2]; exact List.take_prefix _ _
  · rw [hlen]; exact hs
  · rw [e1]
    show BaseOK s.hist n.base n.baseTerm r.log
    rcases hw.baseT with h0 | ⟨h1, h2⟩
    · exact Or.inl h0
    · refine Or.inr ⟨h1, ?_⟩
      rw [take_prefix_of_prefix hw.kv hw.base] at h2
      rw [take_prefix_of_prefix hk hw.base]
      exact h2

/-- `handleAE`, case by case. -/
theorem handleAE_cases {me : Nat} {n : CNode} {m : CAE} {n' : CNode} {a : Option Ack}
    (h : handleAE me n m = some (n', a)) :
    let c := extendsB m.base m.baseTerm m.terms n.base n.baseTerm (terms n.log)
    let c0 := max n.commit (min m.commit c.lcp)
    let r0 : Node := { full n with commit := c0 }
    (m.term < 1 ∧ n' = n ∧ a = none) ∨
    (m.term < n.term ∧ n' = back n (commitWhatWeCan r0) ∧ ∃ k, a = some (mkAck me r0 m.toAE true false k)) ∨
    (n.term ≤ m.term ∧ n' = back n (commitWhatWeCan (follow r0 m.toAE)) ∧
      ∃ rej ns, a = some (mkAck me (follow r0 m.toAE) m.toAE rej ns c.lcp) ∧
        (rej = true ∨ c.lcp = m.base + m.terms.length ∨
          updateLog (full n).log m.toAE c.ext c.lcp = none ∧ m.entries ≠ [] ∧
            (c.ext = false → m.prev ≤ c.lcp) ∧ c.lcp ≠ m.base + m.terms.length)) ∨
    (n.term ≤ m.term ∧ ∃ log, updateLog (full n).log m.toAE c.ext c.lcp = some log ∧ m.entries ≠ [] ∧
      (c.ext = false → m.prev ≤ c.lcp) ∧ c.lcp ≠ m.base + m.terms.length ∧
      n' = { back n (commitWhatWeCan { follow r0 m.toAE with
              log := log, commit := max c0 (min m.commit log.length) }) with
            baseTerm := if c.ext then n.baseTerm else truncTerm n c.lcp } ∧
      ∃ k ns, a = some (mkAck me { follow r0 m.toAE with
              log := log, commit := max c0 (min m.commit log.length) } m.toAE false ns k)) := by
  dsimp only
  unfold handleAE at h
  dsimp only at h
  split at h
  · cases h; exact Or.inl ⟨by assumption, rfl, rfl⟩
  · right
    split at h
    · rename_i h1; cases h; exact Or.inl ⟨h1, rfl, _, rfl⟩
    · rename_i h1
      right
      have hle : n.term ≤ m.term := Nat.not_lt.1 h1
      have e := follow_eq (n := { full n with commit := max n.commit (min m.commit
        (extendsB m.base m.baseTerm m.terms n.base n.baseTerm (terms n.log)).lcp) }) (m := m.toAE) hle
      split at h
      · rename_i h2; cases h
        exact Or.inl ⟨hle, rfl, _, _, rfl, Or.inr (Or.inl h2)⟩
      · rename_i h2
        split at h
        · cases h; exact Or.inl ⟨hle, rfl, _, _, rfl, Or.inl rfl⟩
        · split at h
          · cases h; exact Or.inl ⟨hle, rfl, _, _, rfl, Or.inl rfl⟩
          · rename_i hne
            split at h
            · cases h; exact Or.inl ⟨hle, rfl, _, _, rfl, Or.inl rfl⟩
            · rename_i h3
              have h3' : (extendsB m.base m.baseTerm m.terms n.base n.baseTerm (terms n.log)).ext = false →
                  m.prev ≤ (extendsB m.base m.baseTerm m.terms n.base n.baseTerm (terms n.log)).lcp := by
                intro hx
                rw [hx] at h3
                simp at h3
                omega
              rw [e.2.2.1] at h
              split at h
              · rename_i hu; cases h
                exact Or.inl ⟨hle, rfl, _, _, rfl, Or.inr (Or.inr ⟨hu, hne, h3', h2⟩)⟩
              · rename_i log hu
                split at h
                · cases h
                · right
                  rw [e.2.2.2.2.1] at h
                  simp only [Option.some.injEq, Prod.mk.injEq] at h
                  exact ⟨hle, log, hu, hne, h3', h2, h.1.symm, _, _, h.2.symm⟩

/-- Every message of a leader in this model has a counterpart in the Raft model, built from the
same part `P` of the leader's log. -/
def twin (m : CAE) (P : List Entry) : AE :=
  ⟨m.src, m.term, m.prev, termAt P m.prev, m.entries, terms P, m.commit, m.mcTerm⟩

def AEc (s : Sys) (m : CAE) (P : List Entry) : Prop :=
  Msg.ae (twin m P) ∈ s.msgs ∧ AEok s.hist (twin m P) P ∧ m.base ≤ P.length ∧ m.terms = (terms P).drop m.base ∧
    BaseOK s.hist m.base m.baseTerm P ∧ m.base ≤ m.commit ∧ (m.entries = [] ∨ m.base ≤ m.prev)

theorem follow_congr {r : Node} {m m' : AE} (h1 : m.term = m'.term) (h2 : m.mcTerm = m'.mcTerm) :
    follow r m = follow r m' := by
  unfold follow; rw [h1, h2]

theorem take_glue {P : List Entry} {prev k : Nat} {es : List Entry} (h : es = P.drop prev) (h1 : prev ≤ k) :
    P.take k ++ es.drop (k - prev) = P := by
  rw [h, List.drop_drop, show prev + (k - prev) = k by omega, List.take_append_drop]

theorem ae_goods (I : Invs mem s) (hv : v ∈ mem) (hn : full n = s.nodes v) (hw : WF s.hist n) {m : CAE}
    {P : List Entry} (hm : AEc s m P) (hne : m.src.1 ≠ v)
    (hbm : n.base < m.base → m.base < lastIdx n → cTermAt n m.base = m.baseTerm)
    {n' : CNode} {a : Option Ack} (h : handleAE v n m = some (n', a)) :
    (n' = n ∧ a = none) ∨ ∃ w, a = some w ∧ Goods mem s v (full n') [.ack w] ∧ WF s.hist n' := by
  obtain ⟨hm1, hP, hlb, hterms, hLb, hlc, hpv⟩ := hm
  have hl : lastIdx n = (full n).log.length := (lastIdx_full hw.base).symm
  have hsv := I.i3.saved v
  have hcom := I.i3.com v
  have hcae := I.i3.comAE _ hm1
  have hlast := I.i2.aeLast _ hm1
  have hfull := I.i2.aeFull _ hm1
  have hlogOK := I.i1.logOK v
  have hFit := I.i0.node v
  have hst0 := I.i1.savedTerm v
  have hsm0 := I.i1.savedMc v
  have hlt0 := I.i2.logTerm v
  have hmono := I.i2.logMono v
  rw [← hn] at hsv hcom hlogOK hFit hst0 hsm0 hlt0 hmono
  have hPL : P <+: s.hist.lead m.term := hP.2.1
  have hPt : (s.hist.lead m.term).take (terms P).length = P := by
    rw [terms_length, take_prefix_of_prefix hPL (Nat.le_refl _), List.take_length]
  have hcae : ComOK mem s m.term m.commit P := by
    have : (twin m P).terms.length = (terms P).length := rfl
    rw [this, show (twin m P).term = m.term from rfl, hPt] at hcae
    exact hcae
  have hlast : 1 ≤ P.length ∧ P.length ≤ (s.hist.lead m.term).length ∧ termAt (s.hist.lead m.term) P.length = m.term := by
    have : (twin m P).terms.length = P.length := terms_length P
    rw [this] at hlast; exact hlast
  have hfull : m.entries = [] ∨ m.prev + m.entries.length = P.length := by
    have : (twin m P).terms.length = P.length := terms_length P
    rw [this] at hfull; exact hfull
  have hPok : LogOK s.hist P := (I.i1.leadOK _).prefix hP.2.1
  have hPlen : m.base + m.terms.length = P.length := by
    rw [hterms, List.length_drop, terms_length]; omega
  have hmc : m.mcTerm = m.term := I.i0.msg _ hm1
  have hbc : n.base ≤ n.commit := Nat.le_trans hw.base hsv.2.1
  have hclen : n.commit ≤ (full n).log.length := hcom.len
  -- the comparison
  have hcmp : (full n).log.take (min n.base m.base) = P.take (min n.base m.base) :=
    com_cmp I hcom hcae (by show _ ≤ n.commit; omega) (by omega)
  have hspec := extendsB_spec (h := s.hist) (F := (full n).log) (P := P) (fb := n.base) (ft := n.baseTerm)
    (lb := m.base) (lt := m.baseTerm) hlogOK hPok (by omega) hlb hlast.1 hLb hcmp (by
      intro h1 h2
      have := hbm h1 (by omega)
      unfold cTermAt at this
      rw [if_neg (by omega), ← full_drop hw.base, termAt_drop h1] at this
      exact this)
  rw [← hterms, ← terms_drop, full_drop hw.base] at hspec
  have hcases := handleAE_cases h
  dsimp only at hcases hspec
  generalize extendsB m.base m.baseTerm m.terms n.base n.baseTerm (terms n.log) = c at hcases hspec
  obtain ⟨b1, b2, b3, b4, b5, b6⟩ := hspec
  -- the first rise of the commit index
  have hc0 : ∀ T, n.saved.term ≤ T → m.term ≤ T → ComOK mem s T (max n.commit (min m.commit c.lcp)) (full n).log := by
    intro T h1 h2
    rcases b2 with hb | ⟨hb, hbe⟩
    · rw [show max n.commit (min m.commit c.lcp) = n.commit by omega]
      exact hcom.mono h1 (List.prefix_refl _)
    · refine ComOK.max (hcom.mono h1 (List.prefix_refl _)) (hcae.le h2 (Nat.min_le_left _ _) ?_)
      rw [← List.take_take, ← hbe]
      exact (List.take_prefix _ _).trans (List.take_prefix _ _)
  rcases hcases with ⟨_, h1, h2⟩ | ⟨hlt, h1, k, h2⟩ | ⟨hle, h1, rej, ns, h2, h3⟩ | ⟨hle, log, hup, hent, hgap, hne2, h1, k, ns, h2⟩
  · exact Or.inl ⟨h1, h2⟩
  · -- an old leader
    right
    refine ⟨_, h2, ?_⟩
    have hc1 := hc0 (full n).term hst0 (Nat.le_of_lt hlt)
    have G := stale_goods (v := v) (m := twin m P) (c := max n.commit (min m.commit c.lcp))
      (w := mkAck v { full n with commit := max n.commit (min m.commit c.lcp) } m.toAE true false k) I hv hne
      (by rw [← hn]; exact hlt) (by rw [← hn]; exact Nat.le_max_left _ _)
      (by rw [← hn]; exact Or.inr hc1) rfl rfl (by rw [← hn]; rfl) rfl hFit.le
    have hg := (Grow.same (a := full n) (b := { full n with commit := max n.commit (min m.commit c.lcp) })
      (List.prefix_refl _) rfl rfl).trans (grow_commit _)
    rw [← hn] at G
    have hb := back_wf hw G (hw.kv.trans hg.log) (hg.appl hw.sv) (hg.sv hw.sv)
    rw [h1, hb.1]
    exact ⟨G, hb.2⟩
  all_goals
    have hF0 : Fit { full n with commit := max n.commit (min m.commit c.lcp) } :=
      hFit.of_eq rfl rfl rfl rfl (Or.inl rfl)
    have hsv0 : SavedC { full n with commit := max n.commit (min m.commit c.lcp) } :=
      savedC_raise hsv (Nat.le_max_left _ _) rfl rfl
    have f := follow_eq (n := { full n with commit := max n.commit (min m.commit c.lcp) }) (m := m.toAE) hle
    have ff := Fit.follow (m := m.toAE) hF0 hmc hle
    have fs := follow_saved (m := m.toAE) hF0 hmc hle
    have fu := f.2.2.2.2.2.2.saved hst0 hsm0
    have fc := savedC_follow (m := m.toAE) hsv0
    have fg : Grow (full n) (follow { full n with commit := max n.commit (min m.commit c.lcp) } m.toAE) :=
      (Grow.same (a := full n) (b := { full n with commit := max n.commit (min m.commit c.lcp) })
        (List.prefix_refl _) rfl rfl).trans (grow_follow _ _)
    have finc : (follow { full n with commit := max n.commit (min m.commit c.lcp) } m.toAE).inc = n.inc :=
      f.2.2.2.2.2.2.inc
    generalize hr : follow { full n with commit := max n.commit (min m.commit c.lcp) } m.toAE = r at h1 h2 f ff fs fu fc fg finc
    have hc1 := hc0 m.term (Nat.le_trans hst0 hle) (Nat.le_refl _)
    have hFL : (full n).log.take n.base <+: s.hist.lead m.term := by
      rcases hcom.lead I.i2 hP.1 (show (full n).saved.term ≤ m.term from Nat.le_trans hst0 hle) with h6 | h6
      · refine List.IsPrefix.trans ?_ h6
        rw [show (full n).log.take n.base = ((full n).log.take (full n).commit).take n.base by
          rw [List.take_take]; congr 1; exact (Nat.min_eq_left hbc).symm]
        exact List.take_prefix _ _
      · have : n.base = 0 := by have : n.commit = 0 := h6; omega
        rw [this]; exact List.nil_prefix
    have hlcpL : (full n).log.take c.lcp <+: s.hist.lead m.term := by
      rcases b2 with hb | ⟨_, hb⟩
      · refine List.IsPrefix.trans ?_ hFL
        rw [show (full n).log.take c.lcp = ((full n).log.take n.base).take c.lcp by
          rw [List.take_take]; congr 1; omega]
        exact List.take_prefix _ _
      · rw [hb]; exact (List.take_prefix _ _).trans hP.2.1
    have hextL : c.ext = true → (full n).log <+: s.hist.lead m.term := by
      intro hx
      rw [b3 hx, List.take_length] at hlcpL
      exact hlcpL
  · -- nothing written
    right
    refine ⟨_, h2, ?_⟩
    have hrl : r.log = (full n).log := f.2.2.1
    have hcc := commitWhatWeCan_eq r
    have hst1 : r.saved.term ≤ (commitWhatWeCan r).saved.term := saved_commit r fu.2.2.1
    have hack : ackPos (mkAck v r m.toAE rej ns c.lcp) ≤ (s.hist.lead m.term).length ∧
        (s.hist.lead m.term).take (ackPos (mkAck v r m.toAE rej ns c.lcp)) <+: (full n).log := by
      have hkey : ∀ i, i ≤ (full n).log.length → (full n).log.take i <+: s.hist.lead m.term →
          i ≤ (s.hist.lead m.term).length ∧ (s.hist.lead m.term).take i <+: (full n).log := by
        intro i h6 h7
        have h8 := h7.length_le
        rw [List.length_take, Nat.min_eq_left h6] at h8
        refine ⟨h8, ?_⟩
        rw [take_prefix_of_prefix h7 (by simp; omega), List.take_take, Nat.min_self]
        exact List.take_prefix _ _
      cases rej with
      | true => exact hkey c.lcp b1 hlcpL
      | false =>
        have hwhole : (full n).log <+: s.hist.lead m.term := by
          rcases h3 with h3 | h3 | ⟨h3, h4, h5, h6⟩
          · cases h3
          · -- the follower has all of the leader's entries
            rw [hPlen] at h3
            have hPF : P <+: (full n).log := by
              have e1 : (full n).log.take c.lcp = P.take c.lcp := prefix_take_eq hlcpL hP.2.1 b1 (by omega)
              have e2 : P.take c.lcp = P := by rw [h3, List.take_length]
              rw [← e2, ← e1]; exact List.take_prefix _ _
            have hlen := hPF.length_le
            have hw2 := LogOK.whole hlogOK (by omega)
            have h9 : lastTerm (full n).log = m.term := by
              have k1 := hmono.termAt_le (i := P.length) (j := (full n).log.length) (by omega) hlen (Nat.le_refl _)
              have k2 : termAt (full n).log P.length = m.term := by
                rw [termAt_prefix hPF (Nat.le_refl _), ← termAt_prefix hP.2.1 (Nat.le_refl _)]; exact hlast.2.2
              have k3 : lastTerm (full n).log ≤ (full n).saved.term := by
                have := hlt0 ((full n).log[(full n).log.length - 1]'(by omega)) (List.getElem_mem _)
                rw [← (termAt_eq (t := lastTerm (full n).log) (L := (full n).log) (i := (full n).log.length) (by omega) (Nat.le_refl _)).1 rfl]
                exact this
              have k4 : (full n).term ≤ m.term := hle
              unfold lastTerm at k3 ⊢
              omega
            rw [h9] at hw2; exact hw2.2
          · -- a gap
            unfold updateLog at h3
            cases hx : c.ext with
            | true => exact hextL hx
            | false =>
              rw [hx] at h3
              simp only [Bool.false_eq_true, if_false] at h3
              split at h3
              · rename_i h7
                have := b4 hx
                rcases hfull with h8 | h8
                · exact (h4 h8).elim
                · exfalso
                  have : m.toAE.prev + m.toAE.entries.length = P.length := h8
                  omega
              · cases h3
        have := hkey (full n).log.length (Nat.le_refl _) (by rw [List.take_length]; exact hwhole)
        have e : ackPos (mkAck v r m.toAE false ns c.lcp) = (full n).log.length := by
          show r.log.length = _
          rw [hrl]
        rw [e]; exact this
    have G : Goods mem s v (commitWhatWeCan r) [.ack (mkAck v r m.toAE rej ns c.lcp)] := by
      have hcom1 : (commitWhatWeCan r).commit = max n.commit (min m.commit c.lcp) := by
        rw [hcc.2.2.2.2.2.2.2.2, f.2.2.2.2.1]
      refine fresh_goods (m := twin m P) I hP.1 hv hne (by rw [← hn]; exact hle) (by rw [hcc.1]; exact f.1)
        (by rw [hcc.2.2.2.1, finc, ← hn]; rfl) (by rw [hcc.2.1]; exact f.2.1) ff.commit
        (Nat.le_trans fs hst1) ?_ ?_ ?_ (Or.inl (by rw [hcc.2.2.1, hrl, hn])) ?_ ?_ (savedC_commit fc)
        (by rw [hcc.2.2.2.2.2.2.2.1, f.2.2.2.1, ← hn]) rfl rfl (by exact f.2.1) (by
          show r.mcTerm ≤ r.term
          exact ff.le) (by rw [hcc.2.2.1, hrl]; exact hack)
      · exact ((up_commitWhatWeCan r).saved fu.2.2.1 fu.2.2.2).2.2.1
      · rw [← hn]; exact Nat.le_trans fu.2.1 ((up_commitWhatWeCan r).saved fu.2.2.1 fu.2.2.2).2.1
      · exact ((up_commitWhatWeCan r).saved fu.2.2.1 fu.2.2.2).2.2.2
      · intro t i _ _ h6
        rw [hcc.2.2.1, hrl, hn]
        exact Or.inl h6
      · rw [hcc.2.2.1, hrl, hcom1]
        exact hc1
    have hg := fg.trans (grow_commit r)
    have hb := back_wf hw G (hw.kv.trans hg.log) (hg.appl hw.sv) (hg.sv hw.sv)
    rw [h1, hb.1]
    exact ⟨G, hb.2⟩
  · -- the log is written
    right
    refine ⟨_, h2, ?_⟩
    rw [hPlen] at hne2
    have hprevlen : m.prev + m.entries.length = P.length := hfull.resolve_left hent
    have hentP : m.entries = P.drop m.prev := by
      have h6 : m.entries <+: P.drop m.prev := hP.2.2.2.2.1
      exact h6.eq_of_length (by rw [List.length_drop]; omega)
    have hshape : (c.ext = true ∧ log = (full n).log) ∨ (log = P ∧ (c.ext = true → (full n).log <+: P) ∧
        (c.ext = false → c.lcp < P.length ∧ (full n).log.take c.lcp = P.take c.lcp)) := by
      unfold updateLog at hup
      cases hx : c.ext with
      | true =>
        rw [hx] at hup
        simp only [if_true] at hup
        split at hup
        · cases hup
        · split at hup
          · cases hup; exact Or.inl ⟨rfl, rfl⟩
          · rename_i h6 h7
            cases hup
            right
            have h6' : m.prev ≤ (full n).log.length := Nat.not_lt.1 h6
            have h7' : (full n).log.length - m.prev < m.entries.length := Nat.not_le.1 h7
            have hFP : (full n).log <+: P := prefix_of_prefix_le (hextL hx) hP.2.1 (by omega)
            refine ⟨?_, fun _ => hFP, by simp⟩
            have := take_glue (k := (full n).log.length) hentP h6'
            rw [take_prefix_of_prefix hFP (Nat.le_refl _), List.take_length] at this
            exact this
      | false =>
        rw [hx] at hup
        simp only [Bool.false_eq_true, if_false] at hup
        split at hup
        · cases hup
        · rename_i h6
          cases hup
          right
          have h6' : c.lcp < P.length := by rw [← hprevlen]; exact Nat.not_le.1 h6
          have e1 : (full n).log.take c.lcp = P.take c.lcp := prefix_take_eq hlcpL hP.2.1 b1 (by omega)
          refine ⟨?_, by simp, fun _ => ⟨h6', e1⟩⟩
          rw [e1]; exact take_glue hentP (hgap hx)
    -- what is in both logs stays
    have hkeep : ∀ X : List Entry, X <+: (full n).log → X <+: s.hist.lead m.term → X <+: log := by
      intro X h6 h7
      rcases hshape with ⟨_, rfl⟩ | ⟨rfl, h8, h9⟩
      · exact h6
      · cases hx : c.ext with
        | true => exact h6.trans (h8 hx)
        | false =>
          rcases Nat.le_total X.length log.length with h10 | h10
          · exact prefix_of_prefix_le h7 hP.2.1 h10
          · have h11 := prefix_of_prefix_le hP.2.1 h7 h10
            rcases b6 (h11.trans h6) with h12 | h12
            · have := (h9 hx).1; omega
            · have h13 := b5 h12
              have h14 := hgap hx
              rcases hpv with h15 | h15
              · exact (hent h15).elim
              · omega
    have hlogL : log <+: s.hist.lead m.term := by
      rcases hshape with ⟨hx, rfl⟩ | ⟨rfl, _⟩
      · exact hextL hx
      · exact hP.2.1
    generalize hr1 : ({ r with log := log, commit := max (max n.commit (min m.commit c.lcp)) (min m.commit log.length) } : Node) = r1 at h1 h2
    have e0 : r1.role = r.role ∧ r1.term = r.term ∧ r1.log = log ∧ r1.inc = r.inc ∧ r1.mcTerm = r.mcTerm ∧
        r1.peers = r.peers ∧ r1.commit = max (max n.commit (min m.commit c.lcp)) (min m.commit log.length) ∧
        r1.saved = r.saved ∧ r1.applied = r.applied := by
      subst hr1; exact ⟨rfl, rfl, rfl, rfl, rfl, rfl, rfl, rfl, rfl⟩
    have hcc := commitWhatWeCan_eq r1
    have fu1 : Up (full n) r1 := by
      refine Up.trans (Up.of_eq (b := { full n with commit := max n.commit (min m.commit c.lcp) }) rfl rfl rfl rfl rfl) ?_
      have := (follow_eq (n := { full n with commit := max n.commit (min m.commit c.lcp) }) (m := m.toAE) hle).2.2.2.2.2.2
      rw [hr] at this
      exact this.trans (Up.of_eq e0.2.2.2.1 e0.2.1 e0.2.2.2.2.1 (by rw [e0.2.2.2.2.2.2.2.1]) (by rw [e0.2.2.2.2.2.2.2.1]))
    have fu2 := (fu1.trans (up_commitWhatWeCan r1)).saved hst0 hsm0
    have hst1 : r1.saved.term ≤ (commitWhatWeCan r1).saved.term :=
      saved_commit r1 (by rw [e0.2.2.2.2.2.2.2.1, e0.2.1]; exact fu.2.2.1)
    have fc1 : SavedC r1 := by
      refine savedC_raise fc ?_ e0.2.2.2.2.2.2.2.2 e0.2.2.2.2.2.2.2.1
      rw [f.2.2.2.2.1, e0.2.2.2.2.2.2.1]; exact Nat.le_max_left _ _
    have ff1 : Fit r1 := ff.of_eq e0.2.2.2.2.1 e0.2.1 (by rw [e0.2.2.2.2.2.2.2.1]) (by rw [e0.2.2.2.2.2.2.2.1]) (Or.inl e0.1)
    have G : Goods mem s v (commitWhatWeCan r1) [.ack (mkAck v r1 m.toAE false ns k)] := by
      refine fresh_goods (m := twin m P) I hP.1 hv hne (by rw [← hn]; exact hle) (by rw [hcc.1, e0.1]; exact f.1)
        (by rw [hcc.2.2.2.1, e0.2.2.2.1, finc, ← hn]; rfl) (by rw [hcc.2.1, e0.2.1]; exact f.2.1) ff1.commit
        (Nat.le_trans (by rw [e0.2.2.2.2.2.2.2.1]; exact fs) hst1) fu2.2.2.1 (by rw [← hn]; exact fu2.2.1) fu2.2.2.2
        (Or.inr (by rw [hcc.2.2.1, e0.2.2.1]; exact hlogL)) ?_ ?_ (savedC_commit fc1)
        (by rw [hcc.2.2.2.2.2.2.2.1, e0.2.2.2.2.2.1, f.2.2.2.1, ← hn]) rfl rfl (by
          show r1.term = m.term
          rw [e0.2.1]; exact f.2.1) (by
          show r1.mcTerm ≤ r1.term
          exact ff1.le) ?_
      · intro t i h6 h7 h8
        rw [hcc.2.2.1, e0.2.2.1]
        rcases acked_lead I h6 h7 hP.1 (by rw [← hn]; exact hle) with h9 | h9
        · exact Or.inl (hkeep _ (by rw [hn]; exact h8) h9)
        · exact Or.inr h9
      · rw [hcc.2.2.1, hcc.2.2.2.2.2.2.2.2, e0.2.2.1, e0.2.2.2.2.2.2.1]
        refine ComOK.max ?_ ?_
        · rcases hc1.lead I.i2 hP.1 (Nat.le_refl _) with h6 | h6
          · exact hc1.le (Nat.le_refl _) (Nat.le_refl _) (hkeep _ (List.take_prefix _ _) h6)
          · rw [h6]; exact Or.inl rfl
        · refine hcae.le (Nat.le_refl _) (Nat.min_le_left _ _) ?_
          refine prefix_of_prefix_le ((List.take_prefix _ _).trans hP.2.1) hlogL ?_
          rw [List.length_take]; omega
      · have e : ackPos (mkAck v r1 m.toAE false ns k) = log.length := by
          show r1.log.length = _
          rw [e0.2.2.1]
        rw [e, hcc.2.2.1, e0.2.2.1]
        refine ⟨hlogL.length_le, ?_⟩
        show (s.hist.lead m.term).take log.length <+: log
        rw [take_prefix_of_prefix hlogL (Nat.le_refl _), List.take_length]
        exact List.prefix_refl _
    have hkv : n.kv <+: log := by
      refine hkeep _ hw.kv ?_
      have e : (full n).log.take n.kv.length = n.kv := by
        rw [take_prefix_of_prefix hw.kv (Nat.le_refl _), List.take_length]
      rcases hcom.lead I.i2 hP.1 (show (full n).saved.term ≤ m.term from Nat.le_trans hst0 hle) with h6 | h6
      · refine List.IsPrefix.trans ?_ h6
        rw [← e]
        refine List.prefix_of_prefix_length_le (List.take_prefix _ _) (List.take_prefix _ _) ?_
        have : n.kv.length ≤ (full n).commit := hsv.2.1
        simp only [List.length_take]; omega
      · have : n.kv.length ≤ (full n).commit := hsv.2.1
        have : n.kv = [] := List.length_eq_zero_iff.1 (by omega)
        rw [this]; exact List.nil_prefix
    have hg := grow_commit r1
    have ha1 : r1.saved.applied = r1.applied := by
      rw [e0.2.2.2.2.2.2.2.1, e0.2.2.2.2.2.2.2.2]; exact fg.sv hw.sv
    have hb := back_wf hw G (by rw [hcc.2.2.1, e0.2.2.1]; exact hkv)
      (Nat.le_trans (by rw [e0.2.2.2.2.2.2.2.2]; exact fg.appl hw.sv) (hg.appl ha1)) (hg.sv ha1)
    have hfull' : full n' = commitWhatWeCan r1 := by rw [h1]; exact hb.1
    refine ⟨by rw [hfull']; exact G, ?_⟩
    refine ⟨by rw [h1]; exact hb.2.base, by rw [h1]; exact hb.2.kv, by rw [h1]; exact hb.2.sv, ?_⟩
    rw [hfull']
    have hbb := hb.2.baseT
    rw [hb.1] at hbb
    have eb : n'.base = n.base := by rw [h1]; rfl
    have ebt : n'.baseTerm = if c.ext then n.baseTerm else truncTerm n c.lcp := by rw [h1]
    rw [eb, ebt]
    cases hx : c.ext with
    | true => rw [if_pos rfl]; exact hbb
    | false =>
      rw [if_neg (by simp)]
      unfold truncTerm
      split
      · rename_i h6
        rcases hshape with ⟨h7, _⟩ | ⟨h7, _, h8⟩
        · rw [hx] at h7; cases h7
        · rw [hcc.2.2.1, e0.2.2.1, h7]
          have h9 := LogOK.upTo hlogOK (i := c.lcp) (by omega) b1
          rw [← full_drop hw.base, termAt_drop h6.2]
          refine Or.inr ⟨h9.1, ?_⟩
          rw [(h8 hx).2] at h9
          refine List.IsPrefix.trans ?_ h9.2
          exact List.prefix_of_prefix_length_le (List.take_prefix _ _) (List.take_prefix _ _) (by
            simp only [List.length_take]; omega)
      · exact hbb

end

end Verif.RaftCompact

import Verif.Proofs.RaftCommit
/-
Every careful step keeps `Inv3`; careful executions.
-/
namespace Verif.Raft

section
variable {mem : List Nat} {s : Sys} {v : Nat} {n' : Node} {ms : List Msg}

/-- What is committed is in the log of every leader of the same or a later term. -/
theorem Committed.lead (I2 : Inv2 mem s) {t i T : Nat} (h : Committed mem s t i)
    (hT : Elected s.hist T) (hle : t ≤ T) : (s.hist.lead t).take i <+: s.hist.lead T := by
  rcases Nat.eq_or_lt_of_le hle with e | e
  · subst e; exact List.take_prefix _ _
  · rcases I2.A t T i hT e h.1 with h1 | h1
    · exact h1
    · exact (h.not_dead h1).elim

theorem ComOK.lead (I2 : Inv2 mem s) {t T ci : Nat} {L : List Entry} (h : ComOK mem s t ci L)
    (hT : Elected s.hist T) (hle : t ≤ T) : L.take ci <+: s.hist.lead T ∨ ci = 0 := by
  rcases h with h | ⟨t', i, h1, h2, h3, h4⟩
  · exact Or.inr h
  · left
    have hl := h1.lead I2 hT (by omega)
    have hlen : ((s.hist.lead t').take ci).length = ci := by have := h1.1.2.1; simp; omega
    have e : L.take ci = (s.hist.lead t').take ci := by
      rw [take_prefix_of_prefix h4 (by omega), List.take_take]; congr 1; omega
    rw [e, show (s.hist.lead t').take ci = ((s.hist.lead t').take i).take ci by
      rw [List.take_take]; congr 1; omega]
    exact (List.take_prefix _ _).trans hl

theorem ack_good3 (I : Inv1 mem s) (I3 : Inv3 mem s) {m : Ack} {nf fo : Bool} {k : Nat}
    (hv : v ∈ mem) (hk : s.msgs[k]? = some (.ack m)) (hto : m.leader.1 = v)
    (hc : (s.nodes v).role = .leader → m.term = (s.nodes v).term →
      m.aeTerm = m.term ∧ ∀ x ∈ (s.nodes v).peers, x.1.1 = m.src.1 → x.1 = m.src)
    (G : Good1 mem s v (handleAck mem v (s.nodes v) m nf fo) []) :
    Good3 mem s v (handleAck mem v (s.nodes v) m nf fo) [] := by
  have hmem : Msg.ack m ∈ s.msgs := List.mem_of_getElem? hk
  rcases handleAck_cases mem v (s.nodes v) m nf fo with ⟨mc, hlt, h, _⟩ | h | ⟨hr, hterm, x, hx, h⟩
  · rw [h] at G ⊢
    have e := becomeFollower_eq (n := s.nodes v) (mc := mc) (sv := true) (Nat.le_of_lt hlt)
    exact Good3.quiet I I3 G (by rw [e.2.2.1]; exact List.prefix_refl _) (by omega)
      (savedC_follower (I3.saved v)) e.2.2.2.2.2.1 (Or.inl e.1) (by simp) (by simp)
  · rw [h] at G ⊢
    exact Good3.quiet I I3 G (List.prefix_refl _) (Nat.le_refl _) (I3.saved v) rfl
      (Or.inr ⟨rfl, rfl⟩) (by simp) (by simp)
  · obtain ⟨hae, hone⟩ := hc hr hterm
    have hsrc : m.src.1 ≠ v := by rw [← hto]; exact I3.ackSrc m hmem
    have hnames := names_set (i := x) (I3.names v) hsrc hone
    -- the positions recorded after the update
    have hpos : ∀ y ∈ setMatch (s.nodes v).peers m.src x, y.1.1 ∈ mem → 0 < y.2 →
        Acked s y.1.1 (s.nodes v).term y.2 := by
      intro y hy hm h0
      unfold setMatch at hy
      rcases List.mem_append.1 hy with hy | hy
      · exact I3.pos v hr y (List.mem_of_mem_filter hy) hm h0
      · rw [List.mem_singleton] at hy
        subst hy
        dsimp only at *
        rcases hx with rfl | ⟨h1, rfl⟩ | ⟨h1, rfl⟩
        · obtain ⟨z, hz, e1, e2⟩ := matchOf_mem h0
          have := I3.pos v hr z hz (by rw [e1]; exact hm) (by omega)
          rwa [e1, e2] at this
        · exact Or.inl ⟨m, hmem, rfl, hterm, by omega, by simp [ackPos, h1]⟩
        · exact Or.inl ⟨m, hmem, rfl, hterm, by omega, by simp [ackPos, h1]⟩
    rcases h with h | h
    · rw [h] at G ⊢
      refine ⟨(I3.com v).put I G, by simp, I3.saved v, hnames, ?_, ?_, by simp⟩
      · intro hx; rw [show (_ : Node).role = (s.nodes v).role from rfl, hr] at hx; cases hx
      · intro _ y hy hm h0; exact acked_mono I G (hpos y hy hm h0)
    · have e := leaderAdvance_eq mem { s.nodes v with peers := setMatch (s.nodes v).peers m.src x } nf
      rw [h] at G ⊢
      obtain ⟨e1, e2, e3, e4, _⟩ := e
      refine ⟨?_, by simp, ?_, by rw [e4]; exact hnames, ?_, ?_, by simp⟩
      · have hst := G.st
        have hlt : (s.nodes v).term ≤ (s.nodes v).saved.term := by
          obtain ⟨Q, hQ⟩ := I.leaderEl v hr
          exact (I.elSaved _ _ _ hQ).1
        rw [e3]
        rcases leaderAdvance_cases mem { s.nodes v with peers := setMatch (s.nodes v).peers m.src x } nf
          with h1 | ⟨i, h1, h2, h3, h4, h5, h6⟩
        · have : (leaderAdvanceCommitIndex mem { s.nodes v with peers := setMatch (s.nodes v).peers m.src x } nf).commit
              = (s.nodes v).commit := by rw [h1]
          rw [this]; exact ((I3.com v).put I G).mono hst (List.prefix_refl _)
        · have : (leaderAdvanceCommitIndex mem { s.nodes v with peers := setMatch (s.nodes v).peers m.src x } nf).commit
              = i := by rw [h6]; exact (commitWhatWeCan_eq _).2.2.2.2.2.2.2.2
          rw [this]
          dsimp only at h3 h4 h5 ⊢
          have hll := I.leadLog v hr
          obtain ⟨Q, hQ⟩ := I.leaderEl v hr
          have hcomm : Committed mem s (s.nodes v).term i := by
            refine ⟨⟨by omega, by rw [hll]; exact h4, by rw [hll]; exact h5⟩, ⟨_, _, hQ⟩, _,
              backers_quor hv hnames h1, ?_⟩
            intro u hu
            unfold backers at hu
            rcases List.mem_cons.1 hu with rfl | hu
            · exact Or.inr ⟨_, _, hQ, rfl, by rw [hll]; exact h4⟩
            · rw [List.mem_map] at hu
              obtain ⟨y, hy, rfl⟩ := hu
              obtain ⟨hy1, hy2⟩ := List.mem_filter.1 hy
              simp only [Bool.and_eq_true, decide_eq_true_eq] at hy2
              have := hpos y hy1 hy2.1 (by omega)
              rcases this with ⟨m', k1, k2, k3, k4, k5⟩ | ⟨c, Q', k1, k2, k3⟩
              · exact Or.inl ⟨m', k1, k2, k3, k4, by omega⟩
              · exact Or.inr ⟨c, Q', k1, k2, by omega⟩
          refine ComOK.put I G (Or.inr ⟨_, i, hcomm, Nat.le_trans hlt hst, Nat.le_refl _, ?_⟩)
          rw [hll]; exact List.take_prefix _ _
      · rcases leaderAdvance_cases mem { s.nodes v with peers := setMatch (s.nodes v).peers m.src x } nf
          with h1 | ⟨i, h1, h2, h3, h4, h5, h6⟩
        · rw [h1]; exact I3.saved v
        · rw [h6]
          exact savedC_commit (savedC_raise (I3.saved v) (Nat.le_of_lt h3) rfl rfl)
      · intro hx; rw [e1] at hx
        rw [show (_ : Node).role = (s.nodes v).role from rfl, hr] at hx; cases hx
      · intro _ y hy hm h0
        rw [e4] at hy; rw [e2]
        exact acked_mono I G (hpos y hy hm h0)

theorem ae_good3 (F : Inv0 s) (I : Inv1 mem s) (I2 : Inv2 mem s) (I3 : Inv3 mem s) {m : AE} {k : Nat}
    (hk : s.msgs[k]? = some (.ae m)) (hne : m.src.1 ≠ v)
    (G : Good1 mem s v (handleAppendEntries v (s.nodes v) m).1
      ((handleAppendEntries v (s.nodes v) m).2.toList.map .ack)) :
    Good3 mem s v (handleAppendEntries v (s.nodes v) m).1
      ((handleAppendEntries v (s.nodes v) m).2.toList.map .ack) := by
  have hmem : Msg.ae m ∈ s.msgs := List.mem_of_getElem? hk
  obtain ⟨P, hP⟩ := I.aeOK m hmem
  have hu := up_handleAE v (s.nodes v) m
  have hPl : P.length = m.terms.length := by rw [hP.2.2.1, terms_length]
  have hmc : m.mcTerm = m.term := F.msg _ hmem
  have hfit : Fit { s.nodes v with commit := max (s.nodes v).commit (min m.commit (commonPrefix m.terms (terms (s.nodes v).log))) } :=
    (F.node v).of_eq rfl rfl rfl rfl (Or.inl rfl)
  have hle0 := I.savedTerm v
  have hnoae : ∀ w, Msg.ae w ∉ (handleAppendEntries v (s.nodes v) m).2.toList.map Msg.ack := by
    intro w hw; simp at hw
  rcases handleAE_cases v (s.nodes v) m with ⟨_, h⟩ | ⟨n1, rej, ns, k', h, _, h2⟩
  · have hack : ∀ w, Msg.ack w ∈ (handleAppendEntries v (s.nodes v) m).2.toList.map Msg.ack →
        w.src.1 ≠ w.leader.1 := by
      intro w hw; rw [h] at hw; simp at hw
    have e : (handleAppendEntries v (s.nodes v) m).1 = s.nodes v := by rw [h]
    exact Good3.quiet I I3 G (by rw [e]; exact List.prefix_refl _)
      (by rw [e]; exact Nat.le_refl _) (by rw [e]; exact I3.saved v) (by rw [e])
      (by rw [e]; exact Or.inr ⟨rfl, rfl⟩) hnoae hack
  · have c := commitWhatWeCan_eq n1
    have hack : ∀ w, Msg.ack w ∈ (handleAppendEntries v (s.nodes v) m).2.toList.map Msg.ack →
        w.src.1 ≠ w.leader.1 := by
      intro w hw
      rw [h] at hw
      have hw : w = mkAck v n1 m rej ns k' := by simpa using hw
      subst hw; exact Ne.symm hne
    obtain ⟨hl1, hl2, hl3⟩ := lcp_take hP (I.leadOK _) (I.logOK v)
    have hPt : (s.hist.lead m.term).take m.terms.length = P := by
      rw [← hPl, take_prefix_of_prefix hP.2.1 (Nat.le_refl _), List.take_length]
    have hcae : ComOK mem s m.term m.commit P := by rw [← hPt]; exact I3.comAE m hmem
    -- the first rise of the commit index
    have hc0 : ∀ T, (s.nodes v).saved.term ≤ T → m.term ≤ T → ComOK mem s T
        (max (s.nodes v).commit (min m.commit (commonPrefix m.terms (terms (s.nodes v).log)))) (s.nodes v).log := by
      intro T h1 h2
      refine ComOK.max ((I3.com v).mono h1 (List.prefix_refl _)) (hcae.le h2 (Nat.min_le_left _ _) ?_)
      rw [show P.take (min m.commit (commonPrefix m.terms (terms (s.nodes v).log)))
          = (P.take (commonPrefix m.terms (terms (s.nodes v).log))).take m.commit by
        rw [List.take_take], ← hl3]
      exact (List.take_prefix _ _).trans (List.take_prefix _ _)
    have hsv0 : SavedC { s.nodes v with commit := max (s.nodes v).commit (min m.commit (commonPrefix m.terms (terms (s.nodes v).log))) } :=
      savedC_raise (I3.saved v) (Nat.le_max_left _ _) rfl rfl
    have e1 : (handleAppendEntries v (s.nodes v) m).1 = commitWhatWeCan n1 := by rw [h]
    -- it is enough to look at n1
    have fin : ComOK mem s (commitWhatWeCan n1).saved.term n1.commit n1.log → SavedC n1 → n1.peers = (s.nodes v).peers →
        (n1.role = .follower ∨ n1.role = (s.nodes v).role ∧ n1.term = (s.nodes v).term) →
        Good3 mem s v (handleAppendEntries v (s.nodes v) m).1
          ((handleAppendEntries v (s.nodes v) m).2.toList.map .ack) := by
      intro k1 k2 k3 k4
      refine ⟨?_, fun w hw => (hnoae w hw).elim, by rw [e1]; exact savedC_commit k2, ?_, ?_, ?_, hack⟩
      · have := k1.put I G
        rwa [← c.2.2.1, ← c.2.2.2.2.2.2.2.2, ← e1] at this
      · rw [e1, c.2.2.2.2.2.2.2.1, k3]; exact I3.names v
      · intro hx
        rw [e1, c.1] at hx
        rw [e1, c.2.2.2.2.2.2.2.1, k3]
        rcases k4 with k4 | k4
        · rw [hx] at k4; cases k4
        · exact I3.candPeers v (by rw [← k4.1, hx])
      · intro hx
        rw [e1, c.1] at hx
        rw [e1, c.2.2.2.2.2.2.2.1, c.2.1, k3]
        rcases k4 with k4 | k4
        · rw [hx] at k4; cases k4
        · intro y hy hm h0
          rw [k4.2, ← e1]
          exact acked_mono I G (I3.pos v (by rw [← k4.1, hx]) y hy hm h0)
    rcases h2 with ⟨hlt, hn1, _⟩ | ⟨hle, hn1, _⟩ | ⟨hle, _, log, hup, hgap, hne2, _, hn1⟩
    · apply fin
      · rw [hn1]
        unfold commitWhatWeCan
        split
        · exact hc0 (s.nodes v).term hle0 (Nat.le_of_lt hlt)
        · rename_i hx
          have := (I3.saved v).2.1
          dsimp only at hx ⊢
          rw [show max (s.nodes v).commit (min m.commit (commonPrefix m.terms (terms (s.nodes v).log)))
            = (s.nodes v).commit by omega]
          exact I3.com v
      · rw [hn1]; exact hsv0
      · rw [hn1]
      · rw [hn1]; exact Or.inr ⟨rfl, rfl⟩
    · have f := follow_eq (n := { s.nodes v with commit := max (s.nodes v).commit (min m.commit (commonPrefix m.terms (terms (s.nodes v).log))) }) hle
      apply fin
      · have hfs := (f.2.2.2.2.2.2.saved (I.savedTerm v) (I.savedMc v)).2.2.1
        have hsv : m.term ≤ (commitWhatWeCan n1).saved.term := by
          refine Nat.le_trans ?_ (saved_commit n1 (by rw [hn1]; exact hfs))
          rw [hn1]; exact follow_saved hfit hmc hle
        have hlc : n1.log = (s.nodes v).log ∧ n1.commit = max (s.nodes v).commit (min m.commit (commonPrefix m.terms (terms (s.nodes v).log))) := by
          rw [hn1, f.2.2.1, f.2.2.2.2.1]; exact ⟨rfl, rfl⟩
        rw [hlc.1, hlc.2]
        exact hc0 _ (by omega) hsv
      · rw [hn1]; exact savedC_follow hsv0
      · rw [hn1, f.2.2.2.1]
      · rw [hn1]; exact Or.inl f.1
    · have f := follow_eq (n := { s.nodes v with commit := max (s.nodes v).commit (min m.commit (commonPrefix m.terms (terms (s.nodes v).log))) }) hle
      apply fin
      · have hfs := (f.2.2.2.2.2.2.saved (I.savedTerm v) (I.savedMc v)).2.2.1
        have hsv : m.term ≤ (commitWhatWeCan n1).saved.term := by
          refine Nat.le_trans ?_ (saved_commit n1 (by rw [hn1]; exact hfs))
          rw [hn1]; exact follow_saved hfit hmc hle
        refine ComOK.mono (T := m.term) ?_ hsv (List.prefix_refl _)
        rw [hn1]
        dsimp only
        have hc1 := hc0 m.term (Nat.le_trans hle0 hle) (Nat.le_refl _)
        refine ComOK.max ?_ ?_
        · -- what was committed is in both logs and stays
          rcases hc1.lead I2 hP.1 (Nat.le_refl _) with h6 | h6
          · refine hc1.le (Nat.le_refl _) (Nat.le_refl _) ?_
            exact keep_AE hP (I.leadOK _) (I.logOK v) hup hgap hne2 (List.take_prefix _ _) h6
          · rw [h6]; exact Or.inl rfl
        · have hlogP : log <+: P := by
            rcases handleAE_log hP (I.leadOK _) (I.logOK v) hup hgap with ⟨rfl, h6⟩ | ⟨rfl, _⟩
            · exact h6
            · exact List.take_prefix _ _
          refine hcae.le (Nat.le_refl _) (Nat.min_le_left _ _) ?_
          rw [take_prefix_of_prefix hlogP (Nat.min_le_right _ _)]
          exact List.take_prefix _ _
      · rw [hn1]
        refine savedC_raise (savedC_follow (m := m) hsv0) ?_ rfl rfl
        rw [f.2.2.2.2.1]; exact Nat.le_max_left _ _
      · rw [hn1]; exact f.2.2.2.1
      · rw [hn1]; exact Or.inl f.1

theorem good3_of_tr {a : Action} (F : Inv0 s) (I : Inv1 mem s) (I2 : Inv2 mem s) (I3 : Inv3 mem s)
    (hc : Careful s a) (h : Tr mem s a v n' ms) : Good3 mem s v n' ms := by
  have G := good1_of_tr I h
  cases h with
  | timeout hv hr hb =>
    rename_i noop
    rcases beginElection_eq hv hr hb with ⟨h1, h2, rfl⟩ | ⟨h1, rfl, rfl⟩
    · exact Good3.win I I3 G h2 rfl rfl rfl rfl rfl (fun h => (h h1).elim)
    · refine ⟨((I3.com v).put I G).mono G.st (List.prefix_refl _), by simp, I3.saved v,
        by simp, by simp, by simp, by simp⟩
  | preVote hv hr =>
    exact Good3.quiet I I3 G (List.prefix_refl _) (Nat.le_refl _) (I3.saved v) rfl
      (Or.inl rfl) (by simp) (by simp)
  | stepDown hv hr =>
    have e := becomeFollower_eq (n := s.nodes v) (mc := 0) (sv := true) (Nat.le_refl _)
    exact Good3.quiet I I3 G (by rw [e.2.2.1]; exact List.prefix_refl _) (by omega)
      (savedC_follower (I3.saved v)) e.2.2.2.2.2.1 (Or.inl e.1) (by simp) (by simp)
  | reqVote hv hk hne =>
    rename_i k noop st nf fo m
    have e := handleRequestVote_eq v (s.nodes v) m st
    dsimp only at e
    obtain ⟨e1, e2, e3, e4, e5, e6, e7, e8, e9, e10, e11⟩ := e
    refine Good3.quiet I I3 G (by rw [e5]; exact List.prefix_refl _) (Nat.le_of_eq e7) ?_ e6 ?_
      (by simp) (by simp)
    · have h0 := I3.saved v
      unfold handleRequestVote decideVote
      dsimp only
      split
      · exact h0
      · split
        · exact savedC_save h0.2.1
        · split
          · have h1 : SavedC (becomeFollower (s.nodes v) m.term m.mcTerm false) := savedC_follower h0
            split
            · exact savedC_save h1.2.1
            · exact savedC_save h1.2.1
          · split
            · exact h0
            · split
              · exact savedC_save h0.2.1
              · exact savedC_save h0.2.1
    · rcases e10 with h | h
      · exact Or.inr ⟨h.1, h.2.1⟩
      · exact Or.inl h.1
  | vote hv hk hto ht =>
    rename_i k noop st nf fo m
    have c := countVote_eq v (s.nodes v) m
    have hsc : SavedC (countVote v (s.nodes v) m) :=
      savedC_raise (I3.saved v) (Nat.le_of_eq c.2.2.2.2.2.2.2.1.symm) c.2.2.2.2.2.2.2.2.1 c.2.2.2.2.2.1
    rcases tallyVote_cases ht with rfl | ⟨T, mc, sv, hT, n1, rfl, hn1⟩ | ⟨hr, hterm, hg, h | ⟨hb, hq⟩⟩
    · exact Good3.quiet I I3 G (List.prefix_refl _) (Nat.le_refl _) (I3.saved v) rfl
        (Or.inr ⟨rfl, rfl⟩) (by simp) (by simp)
    · have h0 : n1.term = (s.nodes v).term ∧ n1.log = (s.nodes v).log ∧ n1.commit = (s.nodes v).commit ∧
          n1.peers = (s.nodes v).peers ∧ SavedC n1 := by
        rcases hn1 with ⟨rfl, _⟩ | ⟨rfl, _⟩
        · exact ⟨rfl, rfl, rfl, rfl, I3.saved v⟩
        · exact ⟨c.2.1, c.2.2.1, c.2.2.2.2.2.2.2.1, c.2.2.2.2.2.2.1, hsc⟩
      have hT' : n1.term ≤ T := by omega
      have e := becomeFollower_eq (n := n1) (mc := mc) (sv := sv) hT'
      exact Good3.quiet I I3 G (by rw [e.2.2.1, h0.2.1]; exact List.prefix_refl _)
        (by omega) (savedC_follower h0.2.2.2.2) (by rw [e.2.2.2.2.2.1, h0.2.2.2.1]) (Or.inl e.1)
        (by simp) (by simp)
    · subst h
      exact Good3.quiet I I3 G (by rw [c.2.2.1]; exact List.prefix_refl _) (by omega) hsc
        c.2.2.2.2.2.2.1 (Or.inr ⟨c.1, c.2.1⟩) (by simp) (by simp)
    · exact Good3.win I I3 G hb c.2.1 c.2.2.1 c.2.2.2.2.2.2.2.1 c.2.2.2.2.2.2.2.2.1 c.2.2.2.2.2.2.1
        (fun _ => hr)
  | ae hv hk hne => exact ae_good3 F I I2 I3 hk hne G
  | ack hv hk hto => exact ack_good3 I I3 hv hk hto (hc _ hk) G
  | client hv hr =>
    rename_i cmds
    have hlen : (s.nodes v).commit ≤ (s.nodes v).log.length := by
      rcases I3.com v with h | ⟨t, i, h7, _, h8, h9⟩
      · omega
      · have h10 := h9.length_le
        have h11 := h7.1.2.1
        simp at h10; omega
    by_cases h1 : mem.length = 1
    · have hrb : replicateBatch mem (s.nodes v) cmds = commitWhatWeCan { s.nodes v with
          log := (s.nodes v).log ++ cmds.map (fun c => (⟨(s.nodes v).term, c⟩ : Entry)),
          commit := ((s.nodes v).log ++ cmds.map (fun c => (⟨(s.nodes v).term, c⟩ : Entry))).length } := by
        unfold replicateBatch; rw [if_pos h1]
      have c := commitWhatWeCan_eq { s.nodes v with
          log := (s.nodes v).log ++ cmds.map (fun c => (⟨(s.nodes v).term, c⟩ : Entry)),
          commit := ((s.nodes v).log ++ cmds.map (fun c => (⟨(s.nodes v).term, c⟩ : Entry))).length }
      rw [← hrb] at c
      have hsingle := singleton_committed I G h1 (c.1.trans hr)
      refine ⟨?_, by simp, ?_, by rw [c.2.2.2.2.2.2.2.1]; exact I3.names v, ?_, ?_, by simp⟩
      · have : (replicateBatch mem (s.nodes v) cmds).commit = (replicateBatch mem (s.nodes v) cmds).log.length := by
          rw [c.2.2.2.2.2.2.2.2, c.2.2.1]
        rw [this]
        refine hsingle.mono ?_ (List.prefix_refl _)
        obtain ⟨Q, hQ⟩ := I.leaderEl v hr
        rw [show (replicateBatch mem (s.nodes v) cmds).term = (s.nodes v).term from c.2.1]
        exact Nat.le_trans (I.elSaved _ _ _ hQ).1 G.st
      · rw [hrb]
        exact savedC_commit (savedC_raise (I3.saved v) (by simp; omega) rfl rfl)
      · intro hx; rw [c.1] at hx
        rw [show (_ : Node).role = (s.nodes v).role from rfl, hr] at hx; cases hx
      · intro _ x hx hm h0
        rw [c.2.2.2.2.2.2.2.1] at hx; rw [c.2.1]
        exact acked_mono I G (I3.pos v hr x hx hm h0)
    · have hrb : replicateBatch mem (s.nodes v) cmds = { s.nodes v with
          log := (s.nodes v).log ++ cmds.map (fun c => (⟨(s.nodes v).term, c⟩ : Entry)) } := by
        unfold replicateBatch; rw [if_neg h1]
      rw [hrb] at G ⊢
      exact Good3.quiet I I3 G (List.prefix_append _ _) (Nat.le_refl _) (I3.saved v) rfl
        (Or.inr ⟨rfl, rfl⟩) (by simp) (by simp)
  | send hv hr hcnt =>
    rename_i beg cnt
    have q : (Good3 mem s v (s.nodes v) [Msg.ae (mkAE v (s.nodes v) beg cnt)]) := by
      refine ⟨(I3.com v).put I G, ?_, I3.saved v, I3.names v, I3.candPeers v, ?_, by simp⟩
      · intro m hm
        simp only [List.mem_singleton, Msg.ae.injEq] at hm
        subst hm
        have hll := I.leadLog v hr
        have := (I3.com v).put I G
        refine this.mono (I.savedTerm v) ?_
        show (s.nodes v).log <+: ((s.put mem v (s.nodes v) _).hist.lead (s.nodes v).term).take (terms (s.nodes v).log).length
        rw [terms_length, take_put I G (by rw [hll]; exact Nat.le_refl _), hll, List.take_length]
        exact List.prefix_refl _
      · intro hx x hx' hm h0; exact acked_mono I G (I3.pos v hx x hx' hm h0)
    exact q
  | join hv hp =>
    rename_i p
    refine ⟨(I3.com v).put I G, by simp, I3.saved v, ?_, ?_, ?_, by simp⟩
    · have hn := I3.names v
      constructor
      · dsimp only
        rw [List.map_append, List.nodup_append]
        refine ⟨hn.1.sublist (List.Sublist.map _ List.filter_sublist), by simp, ?_⟩
        intro a ha b hb hab
        simp only [List.map_cons, List.map_nil, List.mem_singleton] at hb
        rw [List.mem_map] at ha
        obtain ⟨x, hx, rfl⟩ := ha
        rw [List.mem_filter] at hx
        have := hx.2
        simp at this
        omega
      · intro x hx
        rcases List.mem_append.1 hx with hx | hx
        · exact hn.2 x (List.mem_of_mem_filter hx)
        · rw [List.mem_singleton] at hx; subst hx; exact hp
    · intro hr x hx
      rcases List.mem_append.1 hx with hx | hx
      · exact I3.candPeers v hr x (List.mem_of_mem_filter hx)
      · rw [List.mem_singleton] at hx; subst hx; rfl
    · intro hr x hx hm h0
      rcases List.mem_append.1 hx with hx | hx
      · exact acked_mono I G (I3.pos v hr x (List.mem_of_mem_filter hx) hm h0)
      · rw [List.mem_singleton] at hx; subst hx; simp at h0
  | leave hv =>
    refine ⟨(I3.com v).put I G, by simp, I3.saved v, ?_, ?_, ?_, by simp⟩
    · have hn := I3.names v
      exact ⟨hn.1.sublist (List.Sublist.map _ List.filter_sublist),
        fun x hx => hn.2 x (List.mem_of_mem_filter hx)⟩
    · intro hr x hx; exact I3.candPeers v hr x (List.mem_of_mem_filter hx)
    · intro hr x hx hm h0
      exact acked_mono I G (I3.pos v hr x (List.mem_of_mem_filter hx) hm h0)
  | crash hv =>
    have hs := I3.saved v
    refine ⟨?_, by simp, ⟨Nat.le_refl _, hs.2.2, hs.2.2⟩, by simp [restart], ?_, ?_, by simp⟩
    · refine ((I3.com v).put I G).le (Nat.le_refl _) hs.1 ?_
      exact List.take_prefix _ _
    · intro hx; cases hx
    · intro hx; cases hx

end

theorem inv3_init (mem : List Nat) : Inv3 mem {} := by
  constructor <;> intros <;> simp_all [ComOK, SavedC]

/-- A run all of whose steps are careful. -/
def CarefulRun (mem : List Nat) (s : Sys) : List Action → Prop
  | [] => True
  | a :: as => Careful s a ∧ ∀ s', step mem s a = some s' → CarefulRun mem s' as

theorem inv_run {mem : List Nat} : ∀ (as : List Action) {s s' : Sys}, Inv0 s → Inv1 mem s → Inv2 mem s →
    Inv3 mem s → CarefulRun mem s as → run mem s as = some s' → Inv1 mem s' ∧ Inv2 mem s' ∧ Inv3 mem s'
  | [], s, s', _, I, I2, I3, _, h => by cases h; exact ⟨I, I2, I3⟩
  | a :: as, s, s', F, I, I2, I3, hc, h => by
    simp only [run, Option.bind_eq_some_iff] at h
    obtain ⟨s1, h1, h2⟩ := h
    have hrest := hc.2 s1 h1
    obtain ⟨v, n', ms, ht, rfl⟩ := step_tr h1
    have G := good1_of_tr I ht
    have G0 := inv0_of_tr F ht
    have G2 := good2_of_tr F I I2 hc.1 ht
    have G3 := good3_of_tr F I I2 I3 hc.1 ht
    exact inv_run as (inv0_put F G0.1 G0.2) (I.put G) (Inv2.put I I2 G G2) (Inv3.put I I3 G G3) hrest h2

end Verif.Raft

import Verif.Proofs.RaftMain
/-
A follower's answer to a leader's message, as far as the invariants of the Raft model need to
know it: `fresh_goods` for messages of the node's term or a later one, `stale_goods` for older
ones. Used for messages and snapshots of leaders with compacted logs.
-/
namespace Verif.Raft

section
variable {mem : List Nat} {s : Sys} {v : Nat} {n' : Node}

/-- Everything a step has to satisfy. -/
structure Goods (mem : List Nat) (s : Sys) (v : Nat) (n' : Node) (ms : List Msg) : Prop where
  fit : Fit n'
  fits : ∀ m ∈ ms, Fits m
  g1 : Good1 mem s v n' ms
  g2 : Good2 mem s v n' ms
  g3 : Good3 mem s v n' ms

/-- All the invariants. -/
structure Invs (mem : List Nat) (s : Sys) : Prop where
  i0 : Inv0 s
  i1 : Inv1 mem s
  i2 : Inv2 mem s
  i3 : Inv3 mem s

theorem Invs.put {ms : List Msg} (I : Invs mem s) (G : Goods mem s v n' ms) :
    Invs mem (s.put mem v n' ms) :=
  ⟨inv0_put I.i0 G.fit G.fits, I.i1.put G.g1, Inv2.put I.i1 I.i2 G.g1 G.g2, Inv3.put I.i1 I.i3 G.g1 G.g3⟩

theorem goods_of_tr {ms : List Msg} {a : Action} (I : Invs mem s) (hc : Careful s a)
    (h : Tr mem s a v n' ms) : Goods mem s v n' ms :=
  ⟨(inv0_of_tr I.i0 h).1, (inv0_of_tr I.i0 h).2, good1_of_tr I.i1 h, good2_of_tr I.i0 I.i1 I.i2 hc h,
    good3_of_tr I.i0 I.i1 I.i2 I.i3 hc h⟩

theorem lead_term_le (I : Invs mem s) {T : Nat} (hT : Elected s.hist T) {L : List Entry}
    (hL : L <+: s.hist.lead T) : ∀ e ∈ L, e.term ≤ T := by
  intro e he
  have hlst := I.i1.leadLast _ hT
  obtain ⟨i, hi, rfl⟩ := List.mem_iff_getElem.1 (hL.subset he)
  have e7 := lastTerm_mono (I.i2.leadMono T) (show 1 ≤ i + 1 by omega) (show i + 1 ≤ _ by omega)
  rw [hlst.2] at e7
  have e8 : termAt (s.hist.lead T) (i + 1) = ((s.hist.lead T)[i]).term :=
    (termAt_eq (by omega) (by omega)).2 rfl
  omega

/-- What a node acknowledged is in the log of the leader of every term it may follow, unless it
can never be committed. -/
theorem acked_lead (I : Invs mem s) {t i T : Nat} (ha : Acked s v t i) (hAt : At s t i)
    (hT : Elected s.hist T) (hle : (s.nodes v).term ≤ T) :
    (s.hist.lead t).take i <+: s.hist.lead T ∨ Dead mem s t i := by
  have ht := ha.term I.i1 I.i2
  have hs := I.i1.savedTerm v
  rcases Nat.eq_or_lt_of_le (show t ≤ T by omega) with heq | hlt
  · left; rw [heq]; exact List.take_prefix _ _
  · exact I.i2.A t _ i hT hlt hAt

/-- A follower at the leader's term after a message or a snapshot. -/
theorem fresh_goods (I : Invs mem s) {m : AE} {w : Ack} (hT : Elected s.hist m.term)
    (hv : v ∈ mem) (hne : m.src.1 ≠ v) (hle : (s.nodes v).term ≤ m.term)
    (hrole : n'.role = .follower) (hinc : n'.inc = (s.nodes v).inc) (hterm : n'.term = m.term)
    (hfit : Fit n') (hst : m.term ≤ n'.saved.term) (hst' : n'.saved.term ≤ n'.term)
    (hsmc : (s.nodes v).saved.mcTerm ≤ n'.saved.mcTerm) (hsmc' : n'.saved.mcTerm ≤ n'.mcTerm)
    (hlog : n'.log = (s.nodes v).log ∨ n'.log <+: s.hist.lead m.term)
    (keep : ∀ t i, Acked s v t i → At s t i → (s.hist.lead t).take i <+: (s.nodes v).log →
      (s.hist.lead t).take i <+: n'.log ∨ Dead mem s t i)
    (hcom : ComOK mem s m.term n'.commit n'.log) (hsv : SavedC n')
    (hpeers : n'.peers = (s.nodes v).peers)
    (hw1 : w.src.1 = v) (hw2 : w.leader = m.src) (hw3 : w.term = m.term) (hw5 : w.mcTerm ≤ w.term)
    (hack : ackPos w ≤ (s.hist.lead m.term).length ∧ (s.hist.lead m.term).take (ackPos w) <+: n'.log) :
    Goods mem s v n' [.ack w] := by
  have h0 := I.i1.savedTerm v
  have G : Good1 mem s v n' [.ack w] := by
    refine ⟨hv, by omega, hsmc, hst', hsmc', fun _ => hinc, ?_, ?_, ?_, by simp, ?_, by simp⟩
    · intro hx; rw [hrole] at hx; cases hx
    · intro hx; rw [hrole] at hx; cases hx
    · intro _
      rcases hlog with h | h
      · exact Or.inl h
      · exact Or.inr ((I.i1.leadOK _).prefix h)
    · intro a b ha hb
      rw [List.mem_singleton] at ha hb
      rw [ha, hb]
  refine ⟨hfit, ?_, G, ?_, ?_⟩
  · intro x hx
    rw [List.mem_singleton] at hx
    subst hx
    exact hw5
  · refine ⟨Or.inr ⟨hinc.symm, by omega⟩, ?_, ?_, ?_, keep, ?_, by simp, by simp, by simp⟩
    · intro e he
      rcases hlog with h | h
      · rw [h] at he
        have := I.i2.logTerm v e he
        omega
      · exact Nat.le_trans (lead_term_le I hT h e he) hst
    · rcases hlog with h | h
      · rw [h]; exact I.i2.logMono v
      · exact (I.i2.leadMono _).prefix h
    · intro hx; rw [hrole] at hx; cases hx
    · intro x hx
      simp only [List.mem_singleton, Msg.ack.injEq] at hx
      subst hx
      refine ⟨hw1, fun _ => ?_⟩
      rw [hw3]
      exact ⟨hT, hterm.symm, hst, hack⟩
  · refine ⟨?_, by simp, hsv, by rw [hpeers]; exact I.i3.names v, ?_, ?_, ?_⟩
    · exact (hcom.put I.i1 G).mono hst (List.prefix_refl _)
    · intro hx; rw [hrole] at hx; cases hx
    · intro hx; rw [hrole] at hx; cases hx
    · intro x hx
      simp only [List.mem_singleton, Msg.ack.injEq] at hx
      subst hx
      rw [hw1, hw2]; exact Ne.symm hne

/-- A message of an old leader: only the commit index may rise. -/
theorem stale_goods (I : Invs mem s) {m : AE} {w : Ack} {c : Nat}
    (hv : v ∈ mem) (hne : m.src.1 ≠ v) (hlt : m.term < (s.nodes v).term)
    (hc : (s.nodes v).commit ≤ c)
    (hcom : c = (s.nodes v).commit ∨ ComOK mem s (s.nodes v).term c (s.nodes v).log)
    (hw1 : w.src.1 = v) (hw2 : w.leader = m.src) (hw3 : w.term = (s.nodes v).term) (hw4 : w.aeTerm = m.term)
    (hw5 : w.mcTerm ≤ w.term) :
    Goods mem s v (commitWhatWeCan { s.nodes v with commit := c }) [.ack w] := by
  have c0 := commitWhatWeCan_eq { s.nodes v with commit := c }
  have hu : Up (s.nodes v) (commitWhatWeCan { s.nodes v with commit := c }) :=
    Up.trans (Up.of_eq (b := { s.nodes v with commit := c }) rfl rfl rfl rfl rfl) (up_commitWhatWeCan _)
  have hsv0 : SavedC { s.nodes v with commit := c } := savedC_raise (I.i3.saved v) hc rfl rfl
  have G : Good1 mem s v (commitWhatWeCan { s.nodes v with commit := c }) [.ack w] := by
    refine Good1.quiet I.i1 hv hu (by rw [c0.2.2.1]) ?_ (by simp) ?_ (by simp)
    · right; rw [c0.1, c0.2.1, c0.2.2.2.2.2.2.1]; exact ⟨rfl, rfl, rfl⟩
    · intro a b ha hb
      rw [List.mem_singleton] at ha hb
      rw [ha, hb]
  refine ⟨Fit.commit ((I.i0.node v).of_eq rfl rfl rfl rfl (Or.inl rfl)), ?_, G, ?_, ?_⟩
  · intro x hx
    rw [List.mem_singleton] at hx
    subst hx; exact hw5
  · refine Good2.same I.i2 G.st (Or.inr ⟨hu.inc.symm, hu.term⟩) (by rw [c0.2.2.1]) ?_ (by simp) (by simp) (by simp)
    intro x hx
    simp only [List.mem_singleton, Msg.ack.injEq] at hx
    subst hx
    exact ⟨hw1, fun h => by omega⟩
  · refine ⟨?_, by simp, savedC_commit hsv0, by rw [c0.2.2.2.2.2.2.2.1]; exact I.i3.names v, ?_, ?_, ?_⟩
    · have key : ComOK mem s (commitWhatWeCan { s.nodes v with commit := c }).saved.term c (s.nodes v).log := by
        unfold commitWhatWeCan
        split
        · rcases hcom with h | h
          · rw [h]; exact (I.i3.com v).mono (I.i1.savedTerm v) (List.prefix_refl _)
          · exact h
        · rename_i hx
          have := (I.i3.saved v).2.1
          dsimp only at hx ⊢
          rw [show c = (s.nodes v).commit by omega]
          exact I.i3.com v
      have := key.put I.i1 G
      rw [c0.2.2.1, c0.2.2.2.2.2.2.2.2]
      exact this
    · intro hx
      rw [c0.1] at hx
      rw [c0.2.2.2.2.2.2.2.1]
      exact I.i3.candPeers v hx
    · intro hx y hy hm h0
      rw [c0.1] at hx
      rw [c0.2.2.2.2.2.2.2.1] at hy
      rw [c0.2.1]
      exact acked_mono I.i1 G (I.i3.pos v hx y hy hm h0)
    · intro x hx
      simp only [List.mem_singleton, Msg.ack.injEq] at hx
      subst hx
      rw [hw1, hw2]; exact Ne.symm hne

end

end Verif.Raft

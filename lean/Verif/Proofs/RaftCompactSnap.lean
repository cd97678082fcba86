import Verif.Proofs.RaftCompactAE
/-
Installation of a snapshot.
-/
namespace Verif.RaftCompact
open Verif.Raft hiding run step receive restart

/-- The state after the installation, as the Raft model sees it, before applying. -/
def installed (n : CNode) (m : Snap) : Node :=
  { full (install n m) with role := .follower, log := m.kv ++ m.entries }

theorem full_install (n : CNode) (m : Snap) : (full (install n m)).log = m.kv := by
  simp [full, install]

/-- A snapshot whose parts fit together. -/
structure Shape (m : Snap) : Prop where
  pos : 1 ≤ m.term
  base : m.base ≤ m.kv.length
  terms : m.terms = (Raft.terms (m.kv ++ m.entries)).drop m.base

theorem snap_lcp {m : Snap} (h : Shape m) :
    (extendsB m.base m.baseTerm m.terms m.kv.length (lastTerm m.kv) []).lcp = m.kv.length := by
  have hl : m.base + m.terms.length = m.kv.length + m.entries.length := by
    rw [h.terms, List.length_drop, terms_length, List.length_append]; have := h.base; omega
  have hb := h.base
  unfold extendsB
  simp only [List.length_nil, Nat.add_zero, ne_eq, not_true_eq_false, if_false, and_true]
  split
  · exact Eq.symm (by assumption)
  · split
    · rename_i h1 h2
      rw [h2, List.length_nil] at hl
      rw [if_neg (by omega), if_pos (by omega)]
      dsimp only; omega
    · split
      · rw [if_neg (by omega)]
        split <;> rfl
      · rfl

theorem install_mismatched {n : CNode} {m : Snap} : mismatchedB (install n m) (snapAE m) = false := by
  unfold mismatchedB
  split
  · rfl
  · split
    · rfl
    · rename_i h1 h2
      have h2' : m.kv.length ≠ 0 := h2
      have e1 : lastIdx (install n m) = m.kv.length := by simp [lastIdx, install]
      rw [e1, if_neg (by show ¬ m.kv.length < m.kv.length; omega),
        if_neg (by show ¬ (m.kv.length = 0 ∨ m.kv.length < m.kv.length); omega),
        if_pos (by show m.kv.length = m.kv.length; rfl)]
      simp [snapAE, install]

/-- What comes of a snapshot of the node's own term. -/
theorem handleSnap_eq {me : Nat} {n : CNode} {m : Snap} (h : Shape m) (ht : m.term = n.term) :
    ∃ ns k, handleSnap me n m = some (back (install n m) (commitWhatWeCan (installed n m)),
      some (mkAck me (installed n m) (snapAE m).toAE false ns k)) := by
  have hl : m.base + m.terms.length = m.kv.length + m.entries.length := by
    rw [h.terms, List.length_drop, terms_length, List.length_append]; have := h.base; omega
  have hlcp := snap_lcp h
  have hfollow : ∀ r : Node, r.mcTerm = m.mcTerm → r.term = m.term → follow r (snapAE m).toAE = { r with role := .follower } := by
    intro r h1 h2
    unfold follow
    dsimp only
    have e1 : ¬ r.mcTerm < (snapAE m).mcTerm := by rw [h1]; exact Nat.lt_irrefl _
    have e2 : ¬ r.term < (snapAE m).term := by rw [h2]; exact Nat.lt_irrefl _
    rw [if_neg e1, if_neg e2]
  unfold handleSnap
  rw [if_neg (by omega)]
  unfold handleAE
  have hc : extendsB (snapAE m).base (snapAE m).baseTerm (snapAE m).terms (install n m).base (install n m).baseTerm
      (terms (install n m).log) = extendsB m.base m.baseTerm m.terms m.kv.length (lastTerm m.kv) [] := rfl
  simp only [hc]
  generalize extendsB m.base m.baseTerm m.terms m.kv.length (lastTerm m.kv) [] = c at hlcp ⊢
  have h0 := h.pos
  rw [if_neg (by show ¬ m.term < 1; omega), if_neg (by show ¬ m.term < n.term; omega)]
  have hcommit : max (install n m).commit (min (snapAE m).commit c.lcp) = m.commit := by
    show max m.commit (min m.commit c.lcp) = m.commit; omega
  rw [hcommit, hfollow _ rfl ht.symm]
  have e0 : (snapAE m).base + (snapAE m).terms.length = m.kv.length + m.entries.length := hl
  rw [e0, hlcp]
  by_cases hent : m.entries = []
  · rw [if_pos (by rw [hent]; simp)]
    refine ⟨c.needSnap, m.kv.length, ?_⟩
    have : installed n m = { full (install n m) with commit := m.commit, role := .follower } := by
      unfold installed
      rw [hent, List.append_nil, ← full_install n m]
      rfl
    rw [this]
  · have hpos := List.length_pos_iff.2 hent
    rw [if_neg (by omega), install_mismatched, if_neg (by simp), if_neg (show ¬ (snapAE m).entries = [] from hent),
      if_neg (by simp [snapAE])]
    have hup : updateLog (full (install n m)).log (snapAE m).toAE c.ext m.kv.length = some (m.kv ++ m.entries) := by
      rw [full_install]
      unfold updateLog
      show (if c.ext = true then
        if m.kv.length < m.kv.length then none
        else if m.entries.length ≤ m.kv.length - m.kv.length then some m.kv
        else some (m.kv ++ m.entries.drop (m.kv.length - m.kv.length))
      else if m.kv.length + m.entries.length ≤ m.kv.length then none
      else some (m.kv.take m.kv.length ++ m.entries.drop (m.kv.length - m.kv.length))) = _
      rw [Nat.sub_self, List.drop_zero, List.take_length]
      split
      · rw [if_neg (Nat.lt_irrefl _), if_neg (by omega)]
      · rw [if_neg (by omega)]
    have hpan : overwritePanics (install n m) m.kv.length = false := by simp [overwritePanics, install]
    have htr : truncTerm (install n m) m.kv.length = (install n m).baseTerm := by
      unfold truncTerm
      rw [if_neg (by simp [lastIdx, install])]
    rw [show ({ full (install n m) with commit := m.commit, role := Role.follower } : Node).log = (full (install n m)).log from rfl, hup]
    dsimp only
    rw [hpan, htr, Bool.and_false, if_neg (by simp)]
    have e1 : max m.commit (min (snapAE m).commit (m.kv ++ m.entries).length) = m.commit := by
      show max m.commit (min m.commit _) = m.commit; omega
    rw [e1]
    have e2 : ({ full (install n m) with log := m.kv ++ m.entries, commit := m.commit, role := Role.follower } : Node)
        = installed n m := rfl
    have e3 : ∀ b : Bool, (if b then (install n m).baseTerm else (install n m).baseTerm) = (install n m).baseTerm := by
      intro b; cases b <;> rfl
    rw [e3]
    exact ⟨_, _, rfl⟩

section
variable {mem : List Nat} {s : Sys} {v : Nat} {n : CNode}

/-- Counterpart of a snapshot in the Raft model: a message with the leader's whole log. -/
def snapTwin (m : Snap) : AE :=
  ⟨m.src, m.term, 0, 0, m.kv ++ m.entries, terms (m.kv ++ m.entries), m.commit, m.mcTerm⟩

def Snc (s : Sys) (m : Snap) : Prop :=
  Msg.ae (snapTwin m) ∈ s.msgs ∧ AEok s.hist (snapTwin m) (m.kv ++ m.entries) ∧
    (∃ Q, (m.term, m.src, Q) ∈ s.hist.elected) ∧ m.kv.length ≤ m.commit ∧ Shape m

theorem snap_goods (I : Invs mem s) (hv : v ∈ mem) (hn : full n = s.nodes v) {m : Snap} (hm : Snc s m)
    (hne : m.src.1 ≠ v) (ht : m.term = n.term)
    (hfresh : ∀ a, Msg.ack a ∈ s.msgs → a.src.1 = v → a.term = m.term → a.aeTerm = m.term →
      ackPos a ≤ m.kv.length + m.entries.length) :
    ∃ n' w, handleSnap v n m = some (n', some w) ∧ Goods mem s v (full n') [.ack w] ∧ WF s.hist n' := by
  obtain ⟨hm1, hP, ⟨Q, hQ⟩, hkc, hsh⟩ := hm
  obtain ⟨ns, k, hh⟩ := handleSnap_eq (me := v) (n := n) hsh ht
  refine ⟨_, _, hh, ?_⟩
  have hPL : m.kv ++ m.entries <+: s.hist.lead m.term := hP.2.1
  have hPt : (s.hist.lead m.term).take (m.kv ++ m.entries).length = m.kv ++ m.entries := by
    rw [take_prefix_of_prefix hPL (Nat.le_refl _), List.take_length]
  have hcae : ComOK mem s m.term m.commit (m.kv ++ m.entries) := by
    have := I.i3.comAE _ hm1
    rw [show (snapTwin m).terms.length = (m.kv ++ m.entries).length from terms_length _,
      show (snapTwin m).term = m.term from rfl, hPt] at this
    exact this
  have hlast : 1 ≤ (m.kv ++ m.entries).length ∧ (m.kv ++ m.entries).length ≤ (s.hist.lead m.term).length ∧
      termAt (s.hist.lead m.term) (m.kv ++ m.entries).length = m.term := by
    have := I.i2.aeLast _ hm1
    rw [show (snapTwin m).terms.length = (m.kv ++ m.entries).length from terms_length _] at this
    exact this
  have hmc : m.mcTerm = m.term := I.i0.msg _ hm1
  have hFit := I.i0.node v
  have hst0 := I.i1.savedTerm v
  have hsm0 := I.i1.savedMc v
  have hle : (s.nodes v).term = m.term := by rw [ht, ← hn]; rfl
  have hcc := commitWhatWeCan_eq (installed n m)
  have hsv : SavedC (installed n m) := ⟨Nat.le_refl _, hkc, hkc⟩
  have hfit : Fit (installed n m) :=
    ⟨by show m.mcTerm ≤ n.term; omega, by show m.mcTerm ≤ n.term; omega,
      Or.inr (by show n.term ≤ n.term; omega), fun hx => by cases hx⟩
  have hs1 : (installed n m).saved.term ≤ (installed n m).term := Nat.le_refl _
  have hs2 : (installed n m).saved.mcTerm ≤ (installed n m).mcTerm := Nat.le_refl _
  have hup := (up_commitWhatWeCan (installed n m)).saved hs1 hs2
  have hPok : LogOK s.hist (m.kv ++ m.entries) := (I.i1.leadOK _).prefix hPL
  have G : Goods mem s v (commitWhatWeCan (installed n m)) [.ack (mkAck v (installed n m) (snapAE m).toAE false ns k)] := by
    refine fresh_goods (m := snapTwin m) I ⟨_, _, hQ⟩ hv hne (by rw [hle]; exact Nat.le_refl _) (by rw [hcc.1]; rfl)
      (by rw [hcc.2.2.2.1, ← hn]; rfl) (by rw [hcc.2.1]; exact ht.symm) hfit.commit ?_ hup.2.2.1 ?_ hup.2.2.2
      (Or.inr (by rw [hcc.2.2.1]; exact hPL)) ?_ ?_ (savedC_commit hsv) (by rw [hcc.2.2.2.2.2.2.2.1, ← hn]; rfl)
      rfl rfl (by exact ht.symm) (by show m.mcTerm ≤ n.term; omega) ?_
    · show m.term ≤ _
      have : (installed n m).saved.term = n.term := rfl
      omega
    · have h1 : (installed n m).saved.mcTerm = m.mcTerm := rfl
      have h2 := hFit.le
      omega
    · intro t i h6 h7 h8
      rw [hcc.2.2.1]
      rcases acked_lead I h6 h7 ⟨_, _, hQ⟩ (by omega) with h9 | h9
      · left
        show (s.hist.lead t).take i <+: m.kv ++ m.entries
        have hi : ((s.hist.lead t).take i).length = i := by have := h7.2.1; simp; omega
        refine prefix_of_prefix_le h9 hPL ?_
        rw [hi]
        have htm := h6.term I.i1 I.i2
        rcases Nat.eq_or_lt_of_le (show t ≤ m.term by omega) with heq | hlt
        · rcases h6 with ⟨a, k1, k2, k3, k4, k5⟩ | ⟨c, Q', k1, k2, _⟩
          · have := hfresh a k1 k2 (by omega) (by omega)
            rw [List.length_append]; omega
          · rw [heq] at k1
            have := I.i1.elUniq _ _ _ _ _ k1 hQ
            rw [this] at k2
            exact (hne k2).elim
        · refine Nat.le_of_not_lt fun hgt => ?_
          have e1 : termAt (s.hist.lead t) (m.kv ++ m.entries).length = m.term := by
            rw [← hlast.2.2, termAt_prefix h9 (by rw [hi]; omega), ← termAt_prefix (List.take_prefix i _) (by rw [hi]; omega)]
          have e2 := (I.i2.leadMono t).termAt_le (i := (m.kv ++ m.entries).length) (j := i) (by omega) (by omega) h7.2.1
          rw [e1, h7.2.2] at e2
          omega
      · exact Or.inr h9
    · rw [hcc.2.2.1, hcc.2.2.2.2.2.2.2.2]
      exact hcae
    · have e : ackPos (mkAck v (installed n m) (snapAE m).toAE false ns k) = (m.kv ++ m.entries).length := rfl
      rw [e, hcc.2.2.1]
      refine ⟨hPL.length_le, ?_⟩
      show (s.hist.lead m.term).take (m.kv ++ m.entries).length <+: m.kv ++ m.entries
      rw [hPt]; exact List.prefix_refl _
  have hw0 : WF s.hist (install n m) := by
    refine ⟨Nat.le_refl _, by rw [full_install]; exact List.prefix_refl _, rfl, ?_⟩
    rw [full_install]
    have hkok : LogOK s.hist m.kv := hPok.prefix (List.prefix_append _ _)
    exact BaseOK.at hkok (Nat.le_refl _)
  have hg := grow_commit (installed n m)
  have hb := back_wf hw0 G (by rw [hcc.2.2.1]; exact List.prefix_append _ _) (hg.appl rfl) (hg.sv rfl)
  rw [hb.1]
  exact ⟨G, hb.2⟩

end

end Verif.RaftCompact

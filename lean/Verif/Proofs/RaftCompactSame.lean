import Verif.Proofs.RaftCompactSim
/-
An AppendEntries message is handled alike before and after compaction.
-/
namespace Verif.RaftCompact
open Verif.Raft hiding run step receive restart

/-- `r'` is `r` with the first `d` entries of its log dropped. -/
def Stored (d : Nat) (r r' : CNode) : Prop :=
  r' = { r with base := r'.base, baseTerm := r'.baseTerm, log := r.log.drop d }

theorem back_stored {n n' : CNode} {d : Nat} (hk : n'.kv = n.kv) (hb : n'.base = n.base + d) (r : Node) (t t' : Nat) :
    Stored d { back n r with baseTerm := t } { back n' r with baseTerm := t' } := by
  unfold Stored back
  dsimp only
  rw [hk, hb, List.drop_drop]

theorem back_stored' {n n' : CNode} {d : Nat} (hk : n'.kv = n.kv) (hb : n'.base = n.base + d) (r : Node) :
    Stored d (back n r) (back n' r) := back_stored hk hb r _ _

/-- What an answer says to the leader about the log. -/
def told (a : Option Ack) : Option (Nat × Bool × Nat) := a.map fun w => (w.term, w.rejected, w.lastIdx)

/-- `handleAE` with the comparison given. -/
def aeWith (me : Nat) (n : CNode) (m : CAE) (c : Cmp) : Option (CNode × Option Ack) :=
  if m.term < 1 then some (n, none)
  else
    let r := { full n with commit := max n.commit (min m.commit c.lcp) }
    if m.term < n.term then
      some (back n (commitWhatWeCan r), some (mkAck me r m.toAE true false (if 0 < n.base then n.base else c.lcp)))
    else
      let r := follow r m.toAE
      if c.lcp = m.base + m.terms.length then
        some (back n (commitWhatWeCan r), some (mkAck me r m.toAE false c.needSnap c.lcp))
      else if mismatchedB n m then
        some (back n (commitWhatWeCan r),
          some (mkAck me r m.toAE true (c.needSnap || decide (c.lcp < m.prev)) c.lcp))
      else if m.entries = [] then
        some (back n (commitWhatWeCan r), some (mkAck me r m.toAE true c.needSnap c.lcp))
      else if !c.ext && decide (c.lcp < m.prev) then
        some (back n (commitWhatWeCan r), some (mkAck me r m.toAE true c.needSnap c.lcp))
      else
        match updateLog r.log m.toAE c.ext c.lcp with
        | none => some (back n (commitWhatWeCan r), some (mkAck me r m.toAE false c.needSnap c.lcp))
        | some log =>
          if !c.ext && overwritePanics n c.lcp then none
          else
            let r := { r with log := log, commit := max r.commit (min m.commit log.length) }
            let n' := { back n (commitWhatWeCan r) with
              baseTerm := if c.ext then n.baseTerm else truncTerm n c.lcp }
            let a := cmpAfter n' m
            some (n', some (mkAck me r m.toAE false a.2 a.1))

theorem handleAE_with (me : Nat) (n : CNode) (m : CAE) :
    handleAE me n m = aeWith me n m (extendsB m.base m.baseTerm m.terms n.base n.baseTerm (terms n.log)) := rfl

/-- When handling panics. -/
theorem aeWith_none {me : Nat} {n : CNode} {m : CAE} {c : Cmp} (h : aeWith me n m c = none) :
    1 ≤ m.term ∧ n.term ≤ m.term ∧ c.lcp ≠ m.base + m.terms.length ∧ m.entries ≠ [] ∧ c.ext = false ∧ m.prev ≤ c.lcp ∧
      c.lcp ≤ n.base ∧ n.log ≠ [] ∧ n.baseTerm ≠ 0 := by
  unfold aeWith at h
  dsimp only at h
  split at h
  · cases h
  rename_i h1
  split at h
  · cases h
  rename_i h2
  split at h
  · cases h
  rename_i h3
  split at h
  · cases h
  split at h
  · cases h
  rename_i h4
  split at h
  · cases h
  rename_i h5
  split at h
  · cases h
  · split at h
    · rename_i h6
      simp only [overwritePanics, Bool.and_eq_true, Bool.not_eq_true', decide_eq_true_eq] at h6
      simp only [h6.1, Bool.not_false, Bool.true_and, decide_eq_true_eq] at h5
      exact ⟨by omega, by omega, h3, h4, h6.1, by omega, h6.2.1.1, h6.2.1.2, h6.2.2⟩
    · cases h

theorem with_same {me : Nat} {n n' : CNode} {m : CAE} {c : Cmp} {d : Nat} (hf : full n' = full n) (hk : n'.kv = n.kv)
    (hb : n'.base = n.base + d) (hlog : n' = n ∨ n.log.drop d = n'.log) (hmis : mismatchedB n' m = mismatchedB n m)
    (hent : m.entries = [] ∨ n'.base < m.prev) :
    ∃ r r' a a', aeWith me n m c = some (r, a) ∧ aeWith me n' m c = some (r', a') ∧ Stored d r r' ∧ told a' = told a := by
  have hcommit : n'.commit = n.commit := congrArg Node.commit hf
  have hterm : n'.term = n.term := congrArg Node.term hf
  have hn : Stored d n n' := by
    unfold Stored
    have h1 : n'.inc = n.inc := congrArg Node.inc hf
    have h2 : n'.role = n.role := congrArg Node.role hf
    have h3 : n'.vote = n.vote := congrArg Node.vote hf
    have h4 : n'.mcTerm = n.mcTerm := congrArg Node.mcTerm hf
    have h5 : n'.yes = n.yes := congrArg Node.yes hf
    have h6 : n'.no = n.no := congrArg Node.no hf
    have h7 : n'.peers = n.peers := congrArg Node.peers hf
    have h8 : n'.saved = n.saved := congrArg Node.saved hf
    have h9 : n'.log = n.log.drop d := by
      rcases hlog with h | h
      · subst h
        have : d = 0 := by omega
        rw [this]; rfl
      · exact h.symm
    cases n' with | mk a1 a2 a3 a4 a5 a6 a7 a8 a9 a10 a11 a12 a13 a14 =>
    dsimp only at *
    rw [CNode.mk.injEq]
    exact ⟨h1, h2, hterm, h3, h4, hcommit, hk, rfl, rfl, h9, h5, h6, h7, h8⟩
  have key : ∀ r : Node, Stored d (back n r) (back n' r) := back_stored' hk hb
  have np : c.ext = false → m.entries ≠ [] → m.prev ≤ c.lcp → n.base < c.lcp ∧ n'.base < c.lcp := by
    intro _ h1 h2
    rcases hent with h | h
    · exact (h1 h).elim
    · omega
  unfold aeWith
  dsimp only
  rw [hf, hcommit, hterm, hmis]
  by_cases h1 : m.term < 1
  · rw [if_pos h1, if_pos h1]; exact ⟨_, _, _, _, rfl, rfl, hn, rfl⟩
  rw [if_neg h1, if_neg h1]
  by_cases h2 : m.term < n.term
  · rw [if_pos h2, if_pos h2]; exact ⟨_, _, _, _, rfl, rfl, key _, rfl⟩
  rw [if_neg h2, if_neg h2]
  by_cases h3 : c.lcp = m.base + m.terms.length
  · rw [if_pos h3, if_pos h3]; exact ⟨_, _, _, _, rfl, rfl, key _, rfl⟩
  rw [if_neg h3, if_neg h3]
  by_cases h4 : mismatchedB n m = true
  · rw [if_pos h4, if_pos h4]; exact ⟨_, _, _, _, rfl, rfl, key _, rfl⟩
  rw [if_neg h4, if_neg h4]
  by_cases hne : m.entries = []
  · rw [if_pos hne, if_pos hne]; exact ⟨_, _, _, _, rfl, rfl, key _, rfl⟩
  rw [if_neg hne, if_neg hne]
  by_cases hgap : (!c.ext && decide (c.lcp < m.prev)) = true
  · rw [if_pos hgap, if_pos hgap]; exact ⟨_, _, _, _, rfl, rfl, key _, rfl⟩
  rw [if_neg hgap, if_neg hgap]
  have hp : ∀ x : CNode, x = n ∨ x = n' → ¬ (!c.ext && overwritePanics x c.lcp) = true := by
    intro x hx h
    simp only [overwritePanics, Bool.and_eq_true, Bool.not_eq_true', decide_eq_true_eq] at h
    simp only [h.1, Bool.not_false, Bool.true_and, decide_eq_true_eq] at hgap
    have := np h.1 hne (by omega)
    rcases hx with rfl | rfl <;> omega
  cases hu : updateLog (follow { full n with commit := max n.commit (min m.commit c.lcp) } m.toAE).log m.toAE c.ext c.lcp with
  | none => exact ⟨_, _, _, _, rfl, rfl, key _, rfl⟩
  | some log =>
    dsimp only
    rw [if_neg (hp n (Or.inl rfl)), if_neg (hp n' (Or.inr rfl))]
    exact ⟨_, _, _, _, rfl, rfl, back_stored hk hb _ _ _, rfl⟩

theorem common_agree : ∀ (k : Nat) (F P : List Nat), k ≤ F.length → k ≤ P.length → F.take k = P.take k →
    commonPrefix P F = k + commonPrefix (P.drop k) (F.drop k)
  | 0, _, _, _, _, _ => by simp
  | k + 1, [], _, h, _, _ => by simp at h
  | k + 1, _ :: _, [], _, h, _ => by simp at h
  | k + 1, x :: F, y :: P, h1, h2, h => by
    simp only [List.take_succ_cons, List.cons.injEq] at h
    simp only [List.length_cons, Nat.add_le_add_iff_right] at h1 h2
    rw [commonPrefix, if_pos (by exact h.1.symm), common_agree k F P h1 h2 h.2, List.drop_succ_cons, List.drop_succ_cons]
    omega

theorem common_whole : ∀ (F P : List Nat), P <+: F → commonPrefix P F = P.length
  | F, [], _ => by simp [commonPrefix]
  | [], y :: P, h => by simp at h
  | x :: F, y :: P, h => by
    have := List.cons_prefix_cons.1 h
    rw [commonPrefix, if_pos this.1, common_whole F P this.2, List.length_cons]

/-- What `Extends` computes when the logs agree up to both bases, or when the follower's log ends
before the leader's base. -/
theorem extendsB_agree {F P : List Nat} {lb lt b bt : Nat} (hb : b < F.length) (hlb : lb < P.length)
    (hag : lb < F.length → F.take (min (max b lb) P.length) = P.take (min (max b lb) P.length)) :
    extendsB lb lt (P.drop lb) b bt (F.drop b) =
      if lb < F.length then ⟨decide (F.length = commonPrefix P F), commonPrefix P F, false⟩
      else if F.length = lb ∧ F.getLast?.getD 0 = lt then ⟨true, F.length, false⟩ else ⟨false, b, true⟩ := by
  have l1 : b + (F.drop b).length = F.length := by rw [List.length_drop]; omega
  have l2 : lb + (P.drop lb).length = P.length := by rw [List.length_drop]; omega
  have n1 : F.drop b ≠ [] := by rw [ne_eq, List.drop_eq_nil_iff]; omega
  have n2 : P.drop lb ≠ [] := by rw [ne_eq, List.drop_eq_nil_iff]; omega
  have g : (F.drop b).getLast? = F.getLast? := by
    rw [List.getLast?_drop, if_neg (by omega)]
  unfold extendsB
  dsimp only
  rw [l1, l2, g, if_neg (by simp [n1]), if_neg n2]
  by_cases h : lb < F.length
  · rw [if_pos h, if_neg (by omega), if_neg n1]
    have hag := hag h
    by_cases h1 : P.length ≤ b
    · rw [if_pos h1]
      rw [Nat.min_eq_right (by omega), List.take_length] at hag
      have := common_whole F P (by rw [← hag]; exact List.take_prefix _ _)
      rw [this]
      have : ¬ F.length = P.length := by omega
      simp [this]
    · rw [if_neg h1]
      rw [Nat.min_eq_left (by omega)] at hag
      have := common_agree (max b lb) F P (by omega) (by omega) hag
      rw [List.drop_drop, List.drop_drop, show lb + (max b lb - lb) = max b lb by omega,
        show b + (max b lb - b) = max b lb by omega, this]
  · rw [if_neg h, if_pos (by omega), if_pos n1]

theorem with_low {me : Nat} {n : CNode} {m : CAE} {b : Nat} (h1 : 1 ≤ m.term) (h2 : n.term ≤ m.term)
    (h3 : b ≤ n.commit) (h4 : b ≠ m.base + m.terms.length) (h5 : m.entries = [] ∨ b < m.prev) :
    ∃ a, aeWith me n m ⟨false, b, true⟩ = some (back n (commitWhatWeCan (follow (full n) m.toAE)), a) ∧
      told a = some ((follow (full n) m.toAE).term, true, (follow (full n) m.toAE).log.length) := by
  unfold aeWith
  dsimp only
  have e : { full n with commit := max n.commit (min m.commit b) } = full n := by
    have : max n.commit (min m.commit b) = (full n).commit := by show _ = n.commit; omega
    rw [this]
  rw [e, if_neg (by omega), if_neg (by omega), if_neg h4]
  by_cases h6 : mismatchedB n m = true
  · rw [if_pos h6]; exact ⟨_, rfl, rfl⟩
  rw [if_neg h6]
  by_cases h7 : m.entries = []
  · rw [if_pos h7]; exact ⟨_, rfl, rfl⟩
  rw [if_neg h7]
  have h8 : (!false && decide (b < m.prev)) = true := by simp; rcases h5 with h | h; exact (h7 h).elim; exact h
  rw [if_pos h8]; exact ⟨_, rfl, rfl⟩

theorem mismatched_drop {n n' : CNode} {m : CAE} (hb : n.base ≤ n.kv.length) (hb' : n'.base ≤ n'.kv.length)
    (hf : full n' = full n) (hle : n.base ≤ n'.base) (h : m.entries = [] ∨ n'.base < m.prev) :
    mismatchedB n' m = mismatchedB n m := by
  unfold mismatchedB
  by_cases h0 : m.entries = []
  · rw [if_pos h0, if_pos h0]
  rw [if_neg h0, if_neg h0]
  have h := h.resolve_left h0
  have hp0 : ¬ m.prev = 0 := by omega
  rw [if_neg hp0, if_neg hp0]
  have hl : lastIdx n' = lastIdx n := by rw [← lastIdx_full hb, ← lastIdx_full hb', hf]
  rw [hl, if_pos (Or.inr h), if_pos (Or.inr (show n.base < m.prev by omega))]
  have e1 : ∀ x : CNode, x.base ≤ x.kv.length → x.base < m.prev → termAt x.log (m.prev - x.base) = termAt (full x).log m.prev := by
    intro x hx h2
    rw [← full_drop hx, termAt_drop h2]
  have e2 : ∀ x : CNode, x.base ≤ x.kv.length → x.base < m.prev → x.log.drop (m.prev - x.base) = (full x).log.drop m.prev := by
    intro x hx h2
    rw [← full_drop hx, List.drop_drop, show x.base + (m.prev - x.base) = m.prev by omega]
  rw [e1 n hb (by omega), e1 n' hb' h, e2 n hb (by omega), e2 n' hb' h, hf]

section
variable {mem : List Nat} {cs : CSys} {s : Sys} {v : Nat}

theorem ae_same (S : Sim mem cs s) {n' : CNode} {m : CAE} (hm : CMsg.ae m ∈ cs.msgs)
    (hc : compact (cs.nodes v) = some n') (ht : (cs.nodes v).term ≤ m.term) (hne : m.terms ≠ [])
    (hent : m.entries = [] ∨ n'.base < m.prev)
    (hbm : (cs.nodes v).base < m.base → m.base < lastIdx (cs.nodes v) → cTermAt (cs.nodes v) m.base = m.baseTerm) :
    ∃ r r' a a', handleAE v (cs.nodes v) m = some (r, a) ∧ handleAE v n' m = some (r', a') ∧
      Stored (n'.base - (cs.nodes v).base) r r' ∧ told a' = told a := by
  have I := S.inv
  have hw := S.wf v
  have hlogOK := I.i1.logOK v
  have hsv := I.i3.saved v
  rw [← S.node v] at hlogOK hsv
  have hL := Later.kv S (Later.refl mem s) v
  obtain ⟨hf, hw'⟩ := compact_full hlogOK hw hc
  obtain ⟨P, hm1, hP, hlb, hterms, hLb, hlc, hpv⟩ := S.ae m hm
  generalize cs.nodes v = n at *
  rw [handleAE_with, handleAE_with]
  by_cases hno : n.log = [] ∨ n.kv.length ≤ n.base + 1
  · have : n' = n := by
      unfold compact at hc
      rw [if_pos hno] at hc
      exact (Option.some.inj hc).symm
    subst this
    rw [Nat.sub_self]
    exact with_same rfl rfl rfl (Or.inl rfl) rfl hent
  have hb := hw.base
  have hnb : n'.kv = n.kv ∧ n'.base = n.kv.length - 1 := by
    unfold compact at hc
    rw [if_neg hno] at hc
    split at hc
    · cases hc
    · cases hc; exact ⟨rfl, rfl⟩
  have hlt : n.base < n'.base := by omega
  have hkl := hw.kv.length_le
  have hPL : P <+: s.hist.lead m.term := hP.2.1
  have hlog' : n'.log = (full n).log.drop n'.base := by rw [← hf, full_drop hw'.base]
  have hPlen : m.base < P.length := by
    rw [hterms, ne_eq, List.drop_eq_nil_iff, terms_length] at hne; omega
  -- the logs agree as far as this log was compacted
  have hkvL : n.kv <+: s.hist.lead m.term := by
    rcases hL with h | ⟨t, i, h1, h2, h3, h4⟩
    · rw [List.eq_nil_of_length_eq_zero h]; exact List.nil_prefix
    · have h5 := h1.lead I.i2 hP.1 (Nat.le_trans h2 ht)
      have h6 : (s.hist.lead t).take n.kv.length = n.kv := by
        have := h4.eq_of_length_le (by rw [List.length_take]; have := h1.1.2.1; omega)
        exact this
      rw [← h6]
      refine List.IsPrefix.trans ?_ h5
      rw [← Nat.min_eq_left h3, ← List.take_take]
      exact List.take_prefix _ _
  have hag0 : ∀ k, k ≤ n.kv.length → k ≤ P.length → (full n).log.take k = P.take k := by
    intro k h1 h2
    rw [take_prefix_of_prefix hw.kv h1, ← take_prefix_of_prefix hPL h2, take_prefix_of_prefix hkvL h1]
  have hag1 : m.base < (full n).log.length → ∀ k, k ≤ max n'.base m.base → k ≤ P.length → (full n).log.take k = P.take k := by
    intro h1 k h2 h3
    by_cases h4 : k ≤ n.kv.length
    · exact hag0 k h4 h3
    · have h5 : k ≤ m.base := by omega
      have h6 := hbm (by omega) (by rw [← lastIdx_full hb]; exact h1)
      unfold cTermAt at h6
      rw [if_neg (by omega), ← full_drop hb, termAt_drop (by omega)] at h6
      have h7 := LogOK.upTo hlogOK (show 0 < m.base by omega) (Nat.le_of_lt h1)
      rcases hLb with h8 | ⟨_, h8⟩
      · omega
      · rw [h6] at h7
        have h9 : (full n).log.take m.base = P.take m.base := by
          have := List.prefix_of_prefix_length_le h7.2 h8 (by rw [List.length_take, List.length_take]; omega)
          exact this.eq_of_length (by rw [List.length_take, List.length_take]; omega)
        have := congrArg (List.take k) h9
        rwa [List.take_take, List.take_take, Nat.min_eq_left h5] at this
  have hag : ∀ b, b ≤ n'.base → m.base < (terms (full n).log).length →
      (terms (full n).log).take (min (max b m.base) (terms P).length) = (terms P).take (min (max b m.base) (terms P).length) := by
    intro b h1 h2
    rw [terms_length] at h2
    unfold terms
    rw [← List.map_take, ← List.map_take]
    congr 1
    exact hag1 h2 _ (by omega) (by rw [List.length_map]; omega)
  have x1 := extendsB_agree (F := terms (full n).log) (P := terms P) (lb := m.base) (lt := m.baseTerm) (b := n.base)
    (bt := n.baseTerm) (by rw [terms_length]; omega) (by rw [terms_length]; exact hPlen) (hag _ (by omega))
  have x2 := extendsB_agree (F := terms (full n).log) (P := terms P) (lb := m.base) (lt := m.baseTerm) (b := n'.base)
    (bt := n'.baseTerm) (by rw [terms_length]; omega) (by rw [terms_length]; exact hPlen) (hag _ (by omega))
  rw [← hterms, ← terms_drop, full_drop hb] at x1
  rw [← hterms, ← terms_drop, ← hlog'] at x2
  have hmis := mismatched_drop (m := m) hb hw'.base hf (by omega) hent
  have hd : n.log.drop (n'.base - n.base) = n'.log := by
    rw [hlog', ← full_drop hb, List.drop_drop, show n.base + (n'.base - n.base) = n'.base by omega]
  have hsame : ∀ c, ∃ r r' a a', aeWith v n m c = some (r, a) ∧ aeWith v n' m c = some (r', a') ∧
      Stored (n'.base - n.base) r r' ∧ told a' = told a := fun c =>
    with_same hf hnb.1 (by omega) (Or.inr hd) hmis hent
  rw [x1, x2]
  by_cases h1 : m.base < (terms (full n).log).length
  · rw [if_pos h1, if_pos h1]; exact hsame _
  rw [if_neg h1, if_neg h1]
  by_cases h2 : (terms (full n).log).length = m.base ∧ (terms (full n).log).getLast?.getD 0 = m.baseTerm
  · rw [if_pos h2, if_pos h2]; exact hsame _
  rw [if_neg h2, if_neg h2]
  rw [terms_length] at h1
  have hpos := S.pos _ hP.1
  have hkc : n.kv.length ≤ n.commit := hsv.2.1
  have hcm : n'.commit = n.commit := congrArg Node.commit hf
  have htm : n'.term = n.term := congrArg Node.term hf
  obtain ⟨a, y1, y2⟩ := with_low (me := v) (n := n) (m := m) (b := n.base) hpos ht (by omega) (by omega)
    (by rcases hpv with h | h; exact Or.inl h; exact Or.inr (by omega))
  obtain ⟨a', z1, z2⟩ := with_low (me := v) (n := n') (m := m) (b := n'.base) hpos (by omega) (by omega) (by omega)
    (by rcases hpv with h | h; exact Or.inl h; exact Or.inr (by omega))
  refine ⟨_, _, a, a', y1, z1, ?_, ?_⟩
  · rw [hf]; exact back_stored' hnb.1 (by omega) _
  · rw [y2, z2, hf]

end

end Verif.RaftCompact

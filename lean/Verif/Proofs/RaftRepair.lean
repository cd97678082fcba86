import Verif.Model.RaftRepair
import Verif.Proofs.RaftStep
import Verif.Proofs.RaftLog
namespace Verif.Raft

/-- What `handleAppendEntries` does to the log and says in its acknowledgement, terms aside. -/
def outcome (log : List Entry) (m : AE) : List Entry × Bool × Bool × Nat :=
  let lcp := commonPrefix m.terms (terms log)
  if lcp = m.terms.length then (log, false, false, lcp)
  else if logsAreMismatched log m then (log, true, decide (lcp < m.prev), lcp)
  else if m.entries = [] then (log, true, false, lcp)
  else if !((terms log).isPrefixOf m.terms) && decide (lcp < m.prev) then (log, true, false, lcp)
  else
    match updateLog log m ((terms log).isPrefixOf m.terms) lcp with
    | none => (log, false, false, lcp)
    | some log' => (log', false, false, lcpAfter log' m)

theorem handle_outcome {you : Nat} {f : Node} {m : AE} (h1 : 1 ≤ m.term) (hf : f.term ≤ m.term) :
    ∃ a, (handleAppendEntries you f m).2 = some a ∧ a.term = m.term ∧ a.leader = m.src ∧
      (handleAppendEntries you f m).1.term = m.term ∧
      ((handleAppendEntries you f m).1.log, a.rejected, a.needSnap, a.lcp) = outcome f.log m := by
  unfold handleAppendEntries outcome
  rw [if_neg (by omega)]
  dsimp only
  rw [if_neg (by show ¬ (m.term < f.term); omega)]
  generalize hn : ({ f with commit := max f.commit (min m.commit (commonPrefix m.terms (terms f.log))) } : Node) = n
  have hnt : n.term ≤ m.term := by rw [← hn]; exact hf
  have hnl : n.log = f.log := by rw [← hn]
  obtain ⟨_, e2, e3, _⟩ := follow_eq (m := m) hnt
  rw [hnl] at e3
  have hcw := fun x => commitWhatWeCan_eq x
  rw [e3]
  split
  · exact ⟨_, rfl, e2, rfl, by rw [(hcw _).2.1, e2], by rw [(hcw _).2.2.1, e3]; rfl⟩
  split
  · exact ⟨_, rfl, e2, rfl, by rw [(hcw _).2.1, e2], by rw [(hcw _).2.2.1, e3]; rfl⟩
  split
  · exact ⟨_, rfl, e2, rfl, by rw [(hcw _).2.1, e2], by rw [(hcw _).2.2.1, e3]; rfl⟩
  split
  · exact ⟨_, rfl, e2, rfl, by rw [(hcw _).2.1, e2], by rw [(hcw _).2.2.1, e3]; rfl⟩
  cases hu : updateLog f.log m ((terms f.log).isPrefixOf m.terms) (commonPrefix m.terms (terms f.log)) with
  | none => exact ⟨_, rfl, e2, rfl, by rw [(hcw _).2.1, e2], by rw [(hcw _).2.2.1, e3]; rfl⟩
  | some log' => exact ⟨_, rfl, e2, rfl, by rw [(hcw _).2.1]; exact e2, by rw [(hcw _).2.2.1]; rfl⟩

theorem commonPrefix_self_prefix (L F : List Entry) (h : terms F <+: terms L) :
    commonPrefix (terms L) (terms F) = F.length := by
  have h1 := commonPrefix_le_right (terms L) (terms F)
  have h2 := prefix_le_commonPrefix _ _ _ h (List.prefix_refl (terms F))
  rw [terms_length] at h1 h2
  omega

theorem lcpAfter_prefix {me : Nat} {n : Node} {beg cnt : Nat} {F : List Entry} (h : terms F <+: terms n.log) :
    lcpAfter F (mkAE me n beg cnt) = F.length := by
  unfold lcpAfter
  split
  · rfl
  · exact commonPrefix_self_prefix _ _ h

/-- The next batch for a follower whose log is the first `k` entries of the leader's. -/
theorem outcome_extend {me : Nat} {n : Node} {k c : Nat} (hk : k < n.log.length) (hc : 1 ≤ c)
    (hck : k + c ≤ n.log.length) :
    outcome (n.log.take k) (mkAE me n (k + 1) c) = (n.log.take (k + c), false, false, k + c) := by
  have hp : terms (n.log.take k) <+: terms n.log := by rw [terms_take]; exact List.take_prefix _ _
  have hlen : (n.log.take k).length = k := by rw [List.length_take]; omega
  have hl := commonPrefix_self_prefix n.log (n.log.take k) hp
  rw [hlen] at hl
  have hprev : (mkAE me n (k + 1) c).prev = k := by simp [mkAE]; omega
  have hterms : (mkAE me n (k + 1) c).terms = terms n.log := rfl
  have hent : (mkAE me n (k + 1) c).entries = (n.log.drop k).take c := by simp [mkAE]
  have hpt : (mkAE me n (k + 1) c).prevTerm = termAt n.log k := by
    show termAt n.log (mkAE me n (k + 1) c).prev = _; rw [hprev]
  have hne : (n.log.drop k).take c ≠ [] := by
    intro hx; have := congrArg List.length hx; simp at this; omega
  have hpref : (terms (n.log.take k)).isPrefixOf (terms n.log) = true := List.isPrefixOf_iff_prefix.2 hp
  unfold outcome
  dsimp only
  rw [hterms, hl, if_neg (by rw [terms_length]; omega)]
  rw [if_neg ?_, hent, if_neg hne, hpref, if_neg (by simp)]
  · have hup : updateLog (n.log.take k) (mkAE me n (k + 1) c) true k = some (n.log.take (k + c)) := by
      unfold updateLog
      rw [if_pos rfl, hprev, hlen, hent, if_neg (by omega), if_neg (by simp; omega), Nat.sub_self,
        List.drop_zero, List.take_add]
    rw [hup]
    dsimp only
    rw [lcpAfter_prefix (by rw [terms_take]; exact List.take_prefix _ _)]
    rw [List.length_take, Nat.min_eq_left hck]
  · unfold logsAreMismatched
    rw [hent, if_neg hne, hprev]
    by_cases h0 : k = 0
    · rw [if_pos h0]; simp
    · rw [if_neg h0, hlen, if_neg (by omega), hpt,
        if_neg (by rw [← termAt_prefix (List.take_prefix k n.log) (by omega)]; simp)]
      rw [List.drop_eq_nil_of_le (by omega)]
      simp

/-- The leader's answer once the follower reports `k` common entries. -/
theorem answer_next {me : Nat} {n : Node} {a : Ack} {lim : Nat} (ht : a.term = n.term)
    (hr : n.role = .leader) (hl : a.leader = (me, n.inc)) (hs : a.needSnap = false)
    (hk : a.lcp < n.log.length) :
    answer me n a lim = some (mkAE me n (a.lcp + 1) (min (lim + 1) (n.log.length - a.lcp))) := by
  have hsend : sendTo me n (a.lcp + 1) lim = some (mkAE me n (a.lcp + 1) (min (lim + 1) (n.log.length - a.lcp))) := by
    unfold sendTo
    rw [if_pos ⟨by omega, by omega⟩]
    congr 3; omega
  unfold answer
  rw [if_neg (by simp [ht, hr, hl]), hs, hsend]
  by_cases hrej : a.rejected = true
  · rw [if_pos hrej]; simp
  · rw [if_neg hrej, if_pos hk]

theorem answer_none {me : Nat} {n : Node} {a : Ack} {lim : Nat} (hrej : a.rejected = false)
    (hk : n.log.length ≤ a.lcp) : answer me n a lim = none := by
  unfold answer
  split
  · rfl
  · rw [hrej, if_neg (by simp), if_neg (by omega)]

/-- From the first `k` entries on, every round adds at least one. -/
theorem exchange_extend {me you : Nat} {n : Node} (hr : n.role = .leader) (h1 : 1 ≤ n.term) :
    ∀ (lims : List Nat) (f : Node) (k c : Nat), f.term ≤ n.term → f.log = n.log.take k → k < n.log.length →
    1 ≤ c → k + c ≤ n.log.length → n.log.length - k ≤ lims.length + c →
    (exchange me you n f (mkAE me n (k + 1) c) lims).log = n.log := by
  intro lims
  induction lims with
  | nil =>
    intro f k c hft hfl hk hc hck hlen
    obtain ⟨a, _, _, _, _, hout⟩ := handle_outcome (you := you) (f := f) (m := mkAE me n (k + 1) c) h1 hft
    rw [hfl, outcome_extend hk hc hck] at hout
    have : k + c = n.log.length := by simp at hlen; omega
    show (handleAppendEntries you f _).1.log = _
    have ol := congrArg Prod.fst hout
    dsimp only at ol
    rw [ol, this, List.take_length]
  | cons lim lims ih =>
    intro f k c hft hfl hk hc hck hlen
    obtain ⟨a, ha, hat, hal, hnt, hout⟩ := handle_outcome (you := you) (f := f) (m := mkAE me n (k + 1) c) h1 hft
    rw [hfl, outcome_extend hk hc hck] at hout
    have ol := congrArg Prod.fst hout
    have orj : a.rejected = false := congrArg (fun x => x.2.1) hout
    have osn : a.needSnap = false := congrArg (fun x => x.2.2.1) hout
    have olc : a.lcp = k + c := congrArg (fun x => x.2.2.2) hout
    dsimp only at ol
    rw [exchange, ha]
    dsimp only [Option.bind_some]
    simp only [List.length_cons] at hlen
    by_cases hdone : k + c = n.log.length
    · rw [answer_none orj (by omega)]
      dsimp only
      rw [ol, hdone, List.take_length]
    · rw [answer_next hat hr hal osn (by omega)]
      dsimp only
      rw [olc]
      exact ih _ (k + c) _ (by rw [hnt]; exact Nat.le_refl _) ol (by omega) (by omega) (by omega) (by omega)

/-- A first batch from index 1 replaces a log with no common entry. -/
theorem outcome_replace {me : Nat} {n : Node} {F : List Entry} {c : Nat}
    (h0 : commonPrefix (terms n.log) (terms F) = 0) (hc : 1 ≤ c) (hck : c ≤ n.log.length) :
    outcome F (mkAE me n 1 c) = (n.log.take c, false, false, c) := by
  have hprev : (mkAE me n 1 c).prev = 0 := by simp [mkAE]
  have hterms : (mkAE me n 1 c).terms = terms n.log := rfl
  have hent : (mkAE me n 1 c).entries = n.log.take c := by simp [mkAE]
  have htl : (n.log.take c).length = c := by rw [List.length_take]; omega
  have hne : n.log.take c ≠ [] := by
    intro hx; rw [hx] at htl; simp at htl; omega
  have hpre : terms (n.log.take c) <+: terms n.log := by rw [terms_take]; exact List.take_prefix _ _
  unfold outcome
  dsimp only
  rw [hterms, h0, if_neg (by rw [terms_length]; omega)]
  rw [if_neg (by unfold logsAreMismatched; rw [hent, if_neg hne, if_pos hprev]; simp), hent, if_neg hne,
    if_neg (by simp [hprev])]
  have hup : updateLog F (mkAE me n 1 c) ((terms F).isPrefixOf (terms n.log)) 0 = some (n.log.take c) := by
    unfold updateLog
    rw [hprev, hent]
    by_cases hx : (terms F).isPrefixOf (terms n.log) = true
    · have := commonPrefix_self_prefix _ _ (List.isPrefixOf_iff_prefix.1 hx)
      rw [h0] at this
      have : F = [] := List.length_eq_zero_iff.1 this.symm
      subst this
      rw [if_pos hx, if_neg (by simp), if_neg (by rw [htl]; simp; omega)]
      simp
    · rw [if_neg hx, if_neg (by rw [htl]; omega)]
      simp
  rw [hup]
  dsimp only
  rw [lcpAfter_prefix hpre, List.length_take, Nat.min_eq_left hck]

theorem outcome_heartbeat {me : Nat} {n : Node} {F : List Entry} :
    outcome F (heartbeat me n) =
      (F, decide (commonPrefix (terms n.log) (terms F) ≠ n.log.length), false,
        commonPrefix (terms n.log) (terms F)) := by
  unfold outcome heartbeat
  have hterms : (mkAE me n 0 0).terms = terms n.log := rfl
  have hent : (mkAE me n 0 0).entries = [] := by simp [mkAE]
  dsimp only
  rw [hterms, terms_length]
  split
  · rename_i h; simp [h]
  · rename_i h
    rw [if_neg (by unfold logsAreMismatched; rw [if_pos hent]; simp)]
    simp [h]

theorem exchange_heartbeat {me you : Nat} {n f : Node} (hr : n.role = .leader) (h1 : 1 ≤ n.term)
    (hft : f.term ≤ n.term) (hlt : commonPrefix (terms n.log) (terms f.log) < n.log.length)
    (lim : Nat) (lims : List Nat) :
    ∃ f' : Node, f'.term = n.term ∧ f'.log = f.log ∧
      exchange me you n f (heartbeat me n) (lim :: lims) =
        exchange me you n f' (mkAE me n (commonPrefix (terms n.log) (terms f.log) + 1)
          (min (lim + 1) (n.log.length - commonPrefix (terms n.log) (terms f.log)))) lims := by
  obtain ⟨a, ha, hat, hal, hnt, hout⟩ := handle_outcome (you := you) (f := f) (m := heartbeat me n) h1 hft
  rw [outcome_heartbeat] at hout
  have ol := congrArg Prod.fst hout
  have osn : a.needSnap = false := congrArg (fun x => x.2.2.1) hout
  have olc : a.lcp = _ := congrArg (fun x => x.2.2.2) hout
  refine ⟨(handleAppendEntries you f (heartbeat me n)).1, hnt, ol, ?_⟩
  rw [exchange, ha]
  dsimp only [Option.bind_some]
  rw [answer_next hat hr hal osn (by rw [olc]; exact hlt), olc]

theorem exchange_repairs {me you : Nat} {n f : Node} (hr : n.role = .leader) (h1 : 1 ≤ n.term)
    (hft : f.term ≤ n.term) (lims : List Nat) (hlen : n.log.length < lims.length)
    (h : f.log <+: n.log ∨ (n.log ≠ [] ∧ commonPrefix (terms n.log) (terms f.log) = 0)) :
    (exchange me you n f (heartbeat me n) lims).log = n.log := by
  obtain ⟨lim, rest, rfl⟩ : ∃ l r, lims = l :: r := by
    cases lims with
    | nil => simp at hlen
    | cons l r => exact ⟨l, r, rfl⟩
  simp only [List.length_cons] at hlen
  by_cases hlt : commonPrefix (terms n.log) (terms f.log) < n.log.length
  · obtain ⟨f', e1, e2, e3⟩ := exchange_heartbeat (me := me) (you := you) hr h1 hft hlt lim rest
    rw [e3]
    rcases h with h | ⟨_, h⟩
    · have hp : terms f.log <+: terms n.log := by
        obtain ⟨t, ht⟩ := h; exact ⟨terms t, by rw [← ht]; simp [terms]⟩
      rw [commonPrefix_self_prefix _ _ hp] at hlt ⊢
      refine exchange_extend hr h1 rest f' _ _ (by omega) ?_ hlt (by omega) (by omega) (by omega)
      rw [e2]; exact List.prefix_iff_eq_take.1 h
    · rw [h] at hlt ⊢
      generalize hc : min (lim + 1) (n.log.length - 0) = c
      have hc1 : 1 ≤ c := by omega
      have hc2 : c ≤ n.log.length := by omega
      have ho := outcome_replace (me := me) (c := c) (e2 ▸ h : commonPrefix (terms n.log) (terms f'.log) = 0) hc1 hc2
      obtain ⟨a, ha, hat, hal, hnt, hout⟩ := handle_outcome (you := you) (f := f') (m := mkAE me n 1 c) h1
        (by rw [e1]; exact Nat.le_refl _)
      rw [ho] at hout
      have ol := congrArg Prod.fst hout
      have orj : a.rejected = false := congrArg (fun x => x.2.1) hout
      have osn : a.needSnap = false := congrArg (fun x => x.2.2.1) hout
      have olc : a.lcp = c := congrArg (fun x => x.2.2.2) hout
      dsimp only at ol
      cases rest with
      | nil => simp only [List.length_nil] at hlen; omega
      | cons lim2 rest =>
        simp only [List.length_cons] at hlen
        show (exchange me you n f' (mkAE me n 1 c) (lim2 :: rest)).log = n.log
        rw [exchange, ha]
        dsimp only [Option.bind_some]
        by_cases hdone : c = n.log.length
        · rw [answer_none orj (by omega)]
          dsimp only
          rw [ol, hdone, List.take_length]
        · rw [answer_next hat hr hal osn (by omega)]
          dsimp only
          rw [olc]
          exact exchange_extend hr h1 rest _ c _ (by rw [hnt]; exact Nat.le_refl _) ol (by omega) (by omega)
            (by omega) (by omega)
  · -- nothing to send
    have hfl : f.log = n.log := by
      have hle := commonPrefix_le_right (terms n.log) (terms f.log)
      rw [terms_length] at hle
      rcases h with h | ⟨h0, h⟩
      · exact h.eq_of_length_le (by omega)
      · exfalso
        have := List.length_pos_iff.2 h0
        omega
    obtain ⟨a, ha, hat, hal, hnt, hout⟩ := handle_outcome (you := you) (f := f) (m := heartbeat me n) h1 hft
    rw [outcome_heartbeat] at hout
    have ol := congrArg Prod.fst hout
    have olc : a.lcp = _ := congrArg (fun x => x.2.2.2) hout
    have orj : a.rejected = _ := congrArg (fun x => x.2.1) hout
    have heq : commonPrefix (terms n.log) (terms f.log) = n.log.length := by
      have := commonPrefix_le_left (terms n.log) (terms f.log)
      rw [terms_length] at this; omega
    dsimp only at ol olc orj
    rw [exchange, ha]
    dsimp only [Option.bind_some]
    rw [answer_none (by rw [orj, heq]; simp) (by omega)]
    dsimp only
    rw [ol, hfl]

/-- The first entry where the two logs part. -/
theorem commonPrefix_next : ∀ (a b : List Nat), commonPrefix a b < a.length → commonPrefix a b < b.length →
    a[commonPrefix a b]? ≠ b[commonPrefix a b]?
  | [], _, h, _ => by simp [commonPrefix] at h
  | _ :: _, [], _, h => by simp [commonPrefix] at h
  | x :: a, y :: b, h1, h2 => by
    unfold commonPrefix at h1 h2 ⊢
    by_cases hxy : x = y
    · rw [if_pos hxy] at h1 h2 ⊢
      simpa using commonPrefix_next a b (by simpa using h1) (by simpa using h2)
    · rw [if_neg hxy] at h1 h2 ⊢
      simpa using hxy

theorem termAt_common {L F : List Entry} {k : Nat} (h : k ≤ commonPrefix (terms L) (terms F)) :
    termAt L k = termAt F k := by
  unfold termAt
  split
  · rfl
  · rename_i h0
    have ht := commonPrefix_take (terms L) (terms F)
    have := congrArg (fun l => l[k - 1]?) ht
    simp only [List.getElem?_take] at this
    rw [if_pos (by omega), if_pos (by omega)] at this
    rw [this]

theorem outcome_conflict {me : Nat} {n : Node} {F : List Entry} {c : Nat}
    (hL : commonPrefix (terms n.log) (terms F) < n.log.length)
    (hF : commonPrefix (terms n.log) (terms F) < F.length)
    (h0 : 1 ≤ commonPrefix (terms n.log) (terms F)) (hc : 1 ≤ c) :
    outcome F (mkAE me n (commonPrefix (terms n.log) (terms F) + 1) c) =
      (F, true, false, commonPrefix (terms n.log) (terms F)) := by
  generalize hk : commonPrefix (terms n.log) (terms F) = k at *
  have hprev : (mkAE me n (k + 1) c).prev = k := by simp [mkAE]; omega
  have hterms : (mkAE me n (k + 1) c).terms = terms n.log := rfl
  have hent : (mkAE me n (k + 1) c).entries = (n.log.drop k).take c := by simp [mkAE]
  have hpt : (mkAE me n (k + 1) c).prevTerm = termAt n.log k := by
    show termAt n.log (mkAE me n (k + 1) c).prev = _; rw [hprev]
  have hne : (n.log.drop k).take c ≠ [] := by
    intro hx; have := congrArg List.length hx; simp at this; omega
  unfold outcome
  dsimp only
  rw [hterms, hk, if_neg (by rw [terms_length]; omega)]
  rw [if_pos ?_, hprev]
  · simp
  · unfold logsAreMismatched
    rw [hent, if_neg hne, hprev, if_neg (by omega), if_neg (by omega), hpt,
      if_neg (by rw [termAt_common (L := n.log) (F := F) (by omega)]; simp)]
    rw [List.any_eq_true]
    have hn := commonPrefix_next (terms n.log) (terms F) (by rw [hk, terms_length]; exact hL)
      (by rw [hk, terms_length]; exact hF)
    rw [hk] at hn
    have hFd : F.drop k = F[k] :: F.drop (k + 1) := List.drop_eq_getElem_cons hF
    have hLd : n.log.drop k = n.log[k] :: n.log.drop (k + 1) := List.drop_eq_getElem_cons hL
    obtain ⟨c', rfl⟩ : ∃ c', c = c' + 1 := ⟨c - 1, by omega⟩
    refine ⟨(F[k], n.log[k]), ?_, ?_⟩
    · rw [hFd, hLd, List.take_succ_cons, List.zip_cons_cons]; exact List.mem_cons_self
    · simp only [ne_eq, decide_eq_true_eq]
      intro he
      apply hn
      simp [terms, List.getElem?_eq_getElem hF, List.getElem?_eq_getElem hL, he]

theorem exchange_stuck {me you : Nat} {n : Node} (hr : n.role = .leader) (h1 : 1 ≤ n.term) {k : Nat} (h0 : 1 ≤ k) :
    ∀ (lims : List Nat) (f : Node) (c : Nat), f.term ≤ n.term → 1 ≤ c →
    commonPrefix (terms n.log) (terms f.log) = k → k < n.log.length → k < f.log.length →
    (exchange me you n f (mkAE me n (k + 1) c) lims).log = f.log := by
  intro lims
  induction lims with
  | nil =>
    intro f c hft hc hk hL hF
    subst hk
    obtain ⟨a, _, _, _, _, hout⟩ := handle_outcome (you := you) (f := f) (m := mkAE me n _ c) h1 hft
    rw [outcome_conflict hL hF h0 hc] at hout
    exact congrArg Prod.fst hout
  | cons lim lims ih =>
    intro f c hft hc hk hL hF
    obtain ⟨a, ha, hat, hal, hnt, hout⟩ := handle_outcome (you := you) (f := f) (m := mkAE me n (k + 1) c) h1 hft
    have ho := outcome_conflict (me := me) (n := n) (F := f.log) (c := c) (by omega) (by omega) (by omega) hc
    rw [hk] at ho
    rw [ho] at hout
    have ol := congrArg Prod.fst hout
    have osn : a.needSnap = false := congrArg (fun x => x.2.2.1) hout
    have olc : a.lcp = k := congrArg (fun x => x.2.2.2) hout
    dsimp only at ol
    rw [exchange, ha]
    dsimp only [Option.bind_some]
    rw [answer_next hat hr hal osn (by omega)]
    dsimp only
    rw [olc, ih _ _ (by rw [hnt]; exact Nat.le_refl _) (by omega) (by rw [ol]; exact hk) hL (by rw [ol]; exact hF), ol]

end Verif.Raft

import Verif.Proofs.TicketStep

/-! Applying entries keeps the invariant. -/
namespace Verif.Ticket

theorem backed_here {s : S} {n : Nid} {e : Entry} {t : Req} {i : Nat} (he : (s.nodes n).log[i]? = some e)
    (hq : e.what = .req t) (ha : (s.nodes n).applied = i + 1) : Backed s t (i + 1) :=
  ⟨n, e, he, hq, Nat.succ_pos _, by omega⟩

theorem finishOwn_wal {s : S} {n t a} (m : Nid) (hf : (s.callers t).finished = false) :
    ((finishOwn s n true t a).nodes m).wal = if m = n then mdel t (s.nodes m).wal else (s.nodes m).wal := by
  rw [finishOwn_eq _ _ _ _ _ hf]
  simp only [delWaiting, S.setNode, S.setCaller]
  by_cases hm : m = n
  · subst hm; simp
  · simp [hm]

theorem finishCopy_wal {s : S} {n t a} (m : Nid) :
    ((finishCopy s n true t a).nodes m).wal = if m = n then mdel t (s.nodes m).wal else (s.nodes m).wal := by
  unfold finishCopy
  split <;>
  · simp only [close, delWaiting, S.setNode, S.setCaller]
    by_cases hm : m = n
    · subst hm; simp
    · simp [hm]

theorem Inv.applyEntry {loc s} (h : Inv loc none s) (n : Nid) (e : Entry)
    (he : (s.nodes n).log[(s.nodes n).applied]? = some e) : Inv loc none (applyEntry s n e) := by
    unfold Ticket.applyEntry
    cases hq : e.what with
    | noop m T =>
      have h1 := h.applied n e he none (by intro t ht; rw [hq] at ht; exact nomatch ht) [] (Or.inl rfl)
      dsimp only
      split
      · refine h1.frame _ rfl rfl rfl rfl rfl ?_
        intro k
        simp only [S.setNode]
        by_cases hk : k = n
        · subst hk; simp
        · simp [hk]
      · exact h1
    | req t =>
      have h1 := h.applied n e he (some t) (by intro u hu; rw [hq] at hu; cases hu; rfl)
        [(n, (s.nodes n).applied + 1, t)] (Or.inr ⟨t, rfl, hq⟩)
      dsimp only
      generalize hs' : advance s n [(n, (s.nodes n).applied + 1, t)] = s' at h1
      have hss : self s n t = self s' n t := by rw [← hs']; rfl
      rw [hss]
      have hnn : s'.nodes n = { s.nodes n with applied := (s.nodes n).applied + 1 } := by
        rw [← hs']; exact if_pos rfl
      have hlead : (s'.nodes n).leading = (s.nodes n).leading := by rw [hnn]
      have hb : Just loc s' t (.ok ((s.nodes n).applied + 1)) :=
        backed_here (n := n) (e := e) (by rw [hnn]; exact he) hq (by rw [hnn])
      have ht : t < s'.next := by
        obtain ⟨p, hp, _, _, hpq⟩ := h1.ent n _ e (by rw [hnn]; exact he)
        exact (h1.log p hp t (hpq.trans hq)).2
      have hwafl : (s.nodes n).leading = false → ∀ m, t ∉ (s'.nodes m).wal ∨ m ≠ n := by
        intro hl m
        by_cases hm : m = n
        · left; intro hw
          have := (h1.wal m t hw).1
          rw [hm, hlead, hl] at this; exact nomatch this
        · exact Or.inr hm
      -- tickets for t waiting at other leaders are above what those have applied
      have hother : ∀ m, m ≠ n → t ∈ (s'.nodes m).wal → (s'.nodes m).applied < (s'.nodes m).idx t ∨
          (self s' m t = true ∧ (s'.callers t).finished = true) := by
        intro m hm hw
        have e1 : s'.nodes m = s.nodes m := by rw [← hs']; exact if_neg hm
        have e2 : s'.callers = s.callers := by rw [← hs']; rfl
        rw [e1] at hw ⊢
        unfold self; rw [e2]
        by_cases hi : 0 < (s.nodes m).idx t
        · rcases (h.walI m t hw hi).2 with h2 | h2 | h2
          · exact Or.inl h2
          · exact Or.inr h2
          · exact nomatch h2
        · exfalso
          have h0 := h.wal0 m t hw (by omega)
          obtain ⟨p, hp, _, _, hpq⟩ := h.ent n _ e he
          rw [(h.log p hp t (hpq.trans hq)).1] at h0
          rcases h0 with h0 | h0 <;> exact nomatch h0
      by_cases hs : self s' n t = true
      · rw [if_pos hs]
        by_cases ho : e.own = true
        · rw [if_pos ho]
          have hfwd := (h1.own n _ e t (by rw [hnn]; exact he) ho hq).2
          have h2 := h1.finishOwn n (s.nodes n).leading t (.ok ((s.nodes n).applied + 1)) ht hb
            (fun m hm => by rw [(h1.waf m t hm).2.1] at hfwd; exact nomatch hfwd)
          apply h2.noex
          intro m hw
          by_cases hf : (s'.callers t).finished = true
          · have he2 : Ticket.finishOwn s' n (s.nodes n).leading t (.ok ((s.nodes n).applied + 1)) = s' := by
              unfold Ticket.finishOwn; rw [if_pos hf]
            rw [he2] at hw ⊢
            by_cases hm : m = n
            · subst hm; exact Or.inr ⟨hs, hf⟩
            · exact hother m hm hw
          · have hf' : (s'.callers t).finished = false := by simpa using hf
            by_cases hm : m = n
            · exfalso
              subst hm
              cases hl : (s.nodes m).leading with
              | true =>
                rw [hl, finishOwn_wal _ hf', if_pos rfl, mem_mdel] at hw
                exact hw.1 rfl
              | false =>
                rw [hl] at hw
                have := (h2.wal m t (by rw [hl]; exact hw)).1
                rw [finishOwn_eq _ _ _ _ _ hf'] at this
                simp only [Ticket.delWaiting, S.setNode, S.setCaller] at this
                rw [hl] at this
                simp [hlead, hl] at this
            · -- the same request cannot wait at another node, the call being made here
              exfalso
              have hw2 := h2.wal m t hw
              have hc : ∀ u, ((Ticket.finishOwn s' n (s.nodes n).leading t (.ok ((s.nodes n).applied + 1))).callers u).home
                  = (s'.callers u).home ∧ ((Ticket.finishOwn s' n (s.nodes n).leading t
                    (.ok ((s.nodes n).applied + 1))).callers u).fwd = (s'.callers u).fwd := by
                intro u
                rw [finishOwn_eq _ _ _ _ _ hf']
                simp only [Ticket.delWaiting, S.setNode, S.setCaller]
                by_cases hu : u = t
                · subst hu; simp
                · simp [hu]
              have h3 := hw2.2.2.2 (by rw [(hc t).2]; exact hfwd)
              unfold self at h3 hs
              simp only [Bool.and_eq_true, beq_iff_eq] at h3 hs
              rw [(hc t).1] at h3
              exact hm (h3.1.symm.trans hs.1)
        · rw [if_neg ho]
          have h2 := h1.finishCopy n (s.nodes n).leading t (.ok ((s.nodes n).applied + 1)) ht hb
          apply h2.noex
          intro m hw
          have hnode : ∀ k, ((Ticket.finishCopy s' n (s.nodes n).leading t (.ok ((s.nodes n).applied + 1))).nodes k).applied
              = (s'.nodes k).applied ∧ ((Ticket.finishCopy s' n (s.nodes n).leading t
                (.ok ((s.nodes n).applied + 1))).nodes k).idx = (s'.nodes k).idx ∧
              ((Ticket.finishCopy s' n (s.nodes n).leading t
                (.ok ((s.nodes n).applied + 1))).nodes k).leading = (s'.nodes k).leading ∧
              ((Ticket.finishCopy s' n (s.nodes n).leading t
                (.ok ((s.nodes n).applied + 1))).nodes k).wal.Sublist (s'.nodes k).wal := by
            intro k
            unfold Ticket.finishCopy
            split <;>
            · simp only [Ticket.close, Ticket.delWaiting, S.setNode, S.setCaller]
              by_cases hk : k = n
              · subst hk; cases (s.nodes k).leading <;> simp [mdel_sublist]
              · simp [hk]
          have hcall : ∀ u, ((Ticket.finishCopy s' n (s.nodes n).leading t (.ok ((s.nodes n).applied + 1))).callers u).finished
              = (s'.callers u).finished ∧ ((Ticket.finishCopy s' n (s.nodes n).leading t
                (.ok ((s.nodes n).applied + 1))).callers u).home = (s'.callers u).home ∧
              ((Ticket.finishCopy s' n (s.nodes n).leading t
                (.ok ((s.nodes n).applied + 1))).callers u).alive = (s'.callers u).alive := by
            intro u
            unfold Ticket.finishCopy
            split
            · simp only [Ticket.close, Ticket.delWaiting, S.setNode, S.setCaller]
              by_cases hu : u = t
              · subst hu; simp
              · simp [hu]
            · exact ⟨rfl, rfl, rfl⟩
          by_cases hm : m = n
          · exfalso
            subst hm
            cases hl : (s.nodes m).leading with
            | true =>
              rw [hl, finishCopy_wal, if_pos rfl, mem_mdel] at hw
              exact hw.1 rfl
            | false =>
              have := (h2.wal m t hw).1
              rw [(hnode m).2.2.1, hlead, hl] at this; exact nomatch this
          · rw [(hnode m).1, (hnode m).2.1, (hcall t).1]
            unfold self
            rw [(hcall t).2.1, (hcall t).2.2]
            exact hother m hm ((hnode m).2.2.2.mem hw)
      · rw [if_neg hs]
        by_cases hl : (s.nodes n).leading = true
        · rw [if_pos hl]
          unfold respond
          rw [if_neg hs, hlead, hl]
          simp only [Bool.false_eq_true, if_false]
          have h2 := h1.finishCopy n true t (.ok ((s.nodes n).applied + 1)) ht hb
          have e2 : Ticket.finishCopy s' n true t (.ok ((s.nodes n).applied + 1)) = Ticket.delWaiting s' n true t := by
            unfold Ticket.finishCopy; rw [if_neg (fun hh => hs hh.2)]
          rw [e2] at h2 ⊢
          have h3 : Inv loc none (Ticket.delWaiting s' n true t) := by
            apply h2.noex
            intro m hw
            by_cases hm : m = n
            · exfalso; subst hm
              simp [Ticket.delWaiting, S.setNode, mem_mdel] at hw
            · have e3 : (Ticket.delWaiting s' n true t).nodes m = s'.nodes m := if_neg hm
              rw [e3] at hw ⊢
              exact hother m hm hw
          apply h3.send
          · intro d u; exact fun hh => nomatch hh
          · intro u a hm
            cases hm
            exact ⟨ht, just_delWaiting _ _ _ _ _ _ _ hb, fun w hw => nomatch hw⟩
        · rw [if_neg hl]
          apply h1.noex
          intro m hw
          by_cases hm : m = n
          · exfalso
            have := (h1.wal m t hw).1
            rw [hm, hlead] at this; exact hl this
          · exact hother m hm hw

theorem Inv.applyOne {loc s} (h : Inv loc none s) (n : Nid) : Inv loc none (applyOne s n) := by
  unfold Ticket.applyOne
  cases he : (s.nodes n).log[(s.nodes n).applied]? with
  | none => exact h
  | some e => exact h.applyEntry n e he

theorem Inv.applyN {loc s} (h : Inv loc none s) (n : Nid) (c : Nat) : Inv loc none (applyN s n c) := by
  induction c generalizing s with
  | zero => exact h
  | succ c ih => exact ih (h.applyOne n)

/-- The deferred calls of commitWhatWeCan change nothing. -/
theorem Inv.commit_eq {loc s} (h : Inv loc none s) (n : Nid) (c : Nat) : commit s n c = Ticket.applyN s n c := by
  unfold commit
  simp only [resubmit_eq, ite_self, (h.applyN n c).ifLost_eq n]

theorem Inv.commit {loc s} (h : Inv loc none s) (n : Nid) (c : Nat) : Inv loc none (commit s n c) := by
  rw [h.commit_eq]; exact h.applyN n c

end Verif.Ticket

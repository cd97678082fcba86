import Verif.Proofs.Ticket

/-! Every step keeps the invariant. -/
namespace Verif.Ticket

/-- Two log entries for one request are the same record. -/
theorem Inv.unique {loc ex s} (h : Inv loc ex s) {p q : Logged} {t : Req} (hp : p ∈ s.logged) (hq : q ∈ s.logged)
    (h1 : p.what = .req t) (h2 : q.what = .req t) : p = q := by
  have := h.log1
  revert hp hq
  generalize s.logged = l at this
  induction l with
  | nil => intro hp; exact nomatch hp
  | cons x l ih =>
    intro hp hq
    rw [List.pairwise_cons] at this
    rcases List.mem_cons.1 hp with hp1 | hp1 <;> rcases List.mem_cons.1 hq with hq1 | hq1
    · rw [hp1, hq1]
    · subst hp1; exact absurd h2 (this.1 q hq1 t h1)
    · subst hq1; exact absurd h1 (this.1 p hp1 t h2)
    · exact ih this.2 hp1 hq1

theorem Inv.backed_logged {loc ex s t i} (h : Inv loc ex s) (hb : Backed s t i) :
    ∃ p ∈ s.logged, p.idx = i ∧ p.what = .req t := by
  obtain ⟨n, e, h1, h2, h3, h4⟩ := hb
  obtain ⟨p, hp, h5, _, h6⟩ := h.ent n _ e h1
  exact ⟨p, hp, by omega, h6.trans h2⟩

/-- The tickets visited in WaitingAtLeader all have a LogIndex, so none is resubmitted. -/
theorem resubmit_eq (s : S) (n : Nid) : resubmit s n = s := by
  unfold resubmit
  have : ((all (s.nodes n) (s.nodes n).wal).filter fun t => decide ((s.nodes n).idx t = 0)) = [] := by
    rw [List.filter_eq_nil_iff]
    intro t ht
    have := (mem_all _ _ _).1 ht
    simp only [decide_eq_true_eq]; omega
  simp only [this, List.mergeSort_nil, List.foldl_nil]

theorem foldl_id {α β} (f : α → β → α) (a : α) (l : List β) (h : ∀ b ∈ l, f a b = a) : l.foldl f a = a := by
  induction l with
  | nil => rfl
  | cons x l ih =>
    rw [List.foldl_cons, h x (List.mem_cons_self ..)]
    exact ih fun b hb => h b (List.mem_cons_of_mem _ hb)

/-- Nobody is ever told that a ticket was lost. -/
theorem Inv.ifLost_eq {loc s} (h : Inv loc none s) (n : Nid) : ifLost s n = s := by
  unfold ifLost
  apply foldl_id
  intro t ht
  rw [mem_all] at ht
  obtain ⟨hw, hi⟩ := ht
  unfold waiting at hw
  by_cases hl : (s.nodes n).leading = true
  · rw [if_pos hl] at hw
    obtain ⟨⟨e, he, hq⟩, hor⟩ := h.walI n t hw hi
    unfold lostOne
    by_cases ha : (s.nodes n).applied < (s.nodes n).idx t
    · simp only [if_pos ha]
    · have hor : self s n t = true ∧ (s.callers t).finished = true := by
        rcases hor with h1 | h1 | h1
        · exact absurd h1 ha
        · exact h1
        · exact nomatch h1
      have hr : ∀ a, respond s n (self s n t) t a = s := by
        intro a
        unfold respond Ticket.finishOwn
        rw [hor.1]; simp only [if_true, hor.2]
      simp only [if_neg ha, hr, ite_self]
      unfold getEntry
      by_cases hb : (s.nodes n).idx t ≤ (s.nodes n).base
      · simp only [if_pos hb]
      · simp only [if_neg hb, he, if_pos hq]
  · rw [if_neg hl] at hw
    have := (h.waf n t hw).2.2.2.1
    omega

/-- LastApplied moves on. -/
theorem Inv.applied {loc s} (h : Inv loc none s) (n : Nid) (e : Entry) (he : (s.nodes n).log[(s.nodes n).applied]? = some e)
    (ex : Option Req) (hex : ∀ t, e.what = .req t → ex = some t) (d : List (Nid × Nat × Req))
    (hd : d = [] ∨ ∃ t, d = [(n, (s.nodes n).applied + 1, t)] ∧ e.what = .req t) :
    Inv loc ex (advance s n d) := by
  have hlt : (s.nodes n).applied < (s.nodes n).log.length := by
    rw [List.getElem?_eq_some_iff] at he; exact he.1
  generalize hs' : advance s n d = s'
  have hn : ∀ m, m ≠ n → s'.nodes m = s.nodes m := fun m hm => by rw [← hs']; exact if_neg hm
  have hnn : s'.nodes n = { s.nodes n with applied := (s.nodes n).applied + 1 } := by rw [← hs']; exact if_pos rfl
  have hf : ∀ m, (s'.nodes m).leading = (s.nodes m).leading ∧ (s'.nodes m).waf = (s.nodes m).waf ∧
      (s'.nodes m).wal = (s.nodes m).wal ∧ (s'.nodes m).batch = (s.nodes m).batch ∧
      (s'.nodes m).idx = (s.nodes m).idx ∧ (s'.nodes m).log = (s.nodes m).log ∧
      (s.nodes m).applied ≤ (s'.nodes m).applied ∧ (s'.nodes m).base = (s.nodes m).base := by
    intro m
    by_cases hm : m = n
    · subst hm; rw [hnn]; exact ⟨rfl, rfl, rfl, rfl, rfl, rfl, Nat.le_succ _, rfl⟩
    · rw [hn m hm]; exact ⟨rfl, rfl, rfl, rfl, rfl, rfl, Nat.le_refl _, rfl⟩
  have hap : ∀ m, (s'.nodes m).applied = if m = n then (s.nodes n).applied + 1 else (s.nodes m).applied := by
    intro m
    by_cases hm : m = n
    · subst hm; rw [hnn, if_pos rfl]
    · rw [hn m hm, if_neg hm]
  have hc : s'.callers = s.callers := by rw [← hs']; rfl
  have hx : s'.next = s.next := by rw [← hs']; rfl
  have hm : s'.net = s.net := by rw [← hs']; rfl
  have hl : s'.logged = s.logged := by rw [← hs']; rfl
  have hdd : s'.did = s.did ++ d := by rw [← hs']; rfl
  have hself : ∀ n t, self s' n t = self s n t := fun n t => by unfold self; rw [hc]
  have hJ : ∀ t a, Just loc s t a → Just loc s' t a := by
    intro t a h
    cases a with
    | ok i => exact h.mono (fun n j e _ h => ⟨e, by rw [(hf n).2.2.2.2.2.1]; exact h, rfl⟩) (fun n => (hf n).2.2.2.2.2.2.1)
    | err w => exact h
  constructor
  · rw [hm, hx, hc]; exact h.net
  · rw [hm]; exact h.net1
  · intro n t; rw [(hf n).2.2.2.1, hx, hc, (hf n).1, hself]; exact h.batch n t
  · intro n; rw [(hf n).2.2.2.1]; exact h.batch1 n
  · rw [hl, hx]; exact h.log
  · rw [hl]; exact h.log1
  · intro n; rw [(hf n).2.2.2.2.2.1, hl]; exact h.ent n
  · intro n i e t; rw [(hf n).2.2.2.2.2.1, hself, hc]; exact h.own n i e t
  · intro m; rw [(hf m).2.2.2.2.2.1, hap m]
    by_cases hmn : m = n
    · subst hmn; rw [if_pos rfl]; exact hlt
    · rw [if_neg hmn]; exact h.app m
  · intro m; rw [(hf m).2.2.2.2.2.2.2]; exact Nat.le_trans (h.base m) (hf m).2.2.2.2.2.2.1
  · intro n t; rw [(hf n).2.1, hc, hx, (hf n).2.2.2.2.1]; exact h.waf n t
  · intro n t; rw [(hf n).2.2.1, (hf n).1, hc, hx, hself]; exact h.wal n t
  · intro n t; rw [(hf n).2.2.1, (hf n).2.2.2.2.1]; exact h.wal0 n t
  · intro m t
    rw [(hf m).2.2.1, (hf m).2.2.2.2.1, (hf m).2.2.2.2.2.1, hap m, hc, hself]
    intro hw hi
    obtain ⟨⟨e', he', hq'⟩, hor⟩ := h.walI m t hw hi
    refine ⟨⟨e', he', hq'⟩, ?_⟩
    by_cases hmn : m = n
    · subst hmn
      rw [if_pos rfl]
      rcases hor with h1 | h1 | h1
      · by_cases hlast : (s.nodes m).idx t = (s.nodes m).applied + 1
        · rw [hlast, Nat.add_sub_cancel, he] at he'
          cases he'
          exact Or.inr (Or.inr (hex t hq'))
        · exact Or.inl (by omega)
      · exact Or.inr (Or.inl h1)
      · exact nomatch h1
    · rw [if_neg hmn]
      rcases hor with h1 | h1 | h1
      · exact Or.inl h1
      · exact Or.inr (Or.inl h1)
      · exact nomatch h1
  · rw [hc]; exact h.fin
  · intro t a; rw [hm, hx, hc]; intro hmem; have := h.ansm t a hmem; exact ⟨this.1, hJ _ _ this.2.1, this.2.2⟩
  · intro t a; rw [hx, hc]; intro hmem; have := h.ans t a hmem; exact ⟨this.1, hJ _ _ this.2⟩
  · intro x hxm
    rw [hdd, List.mem_append] at hxm
    rw [(hf x.1).2.2.2.2.2.1]
    rcases hxm with hxm | hxm
    · obtain ⟨h1, h2, h3⟩ := h.did x hxm
      exact ⟨h1, Nat.le_trans h2 (hf x.1).2.2.2.2.2.2.1, h3⟩
    · rcases hd with hd | ⟨t, hd, hq⟩
      · rw [hd] at hxm; exact nomatch hxm
      · rw [hd, List.mem_singleton] at hxm
        subst hxm
        refine ⟨Nat.succ_pos _, ?_, e, ?_, hq⟩
        · rw [hap, if_pos rfl]; exact Nat.le_refl _
        · exact he
  · rw [hdd, List.pairwise_append]
    refine ⟨h.did1, ?_, ?_⟩
    · rcases hd with hd | ⟨t, hd, _⟩
      · rw [hd]; exact List.Pairwise.nil
      · rw [hd]; exact List.pairwise_singleton _ _
    · intro a ha b hb
      rcases hd with hd | ⟨t, hd, _⟩
      · rw [hd] at hb; exact nomatch hb
      · rw [hd, List.mem_singleton] at hb
        subst hb
        intro h1
        have := (h.did a ha).2.1
        simp only at h1 ⊢
        rw [h1] at this
        omega
  · intro n t; rw [(hf n).2.2.2.2.1, hl]; exact h.idx0 n t

/-- The exception is no longer needed once the ticket is out of WaitingAtLeader or finished. -/
theorem Inv.noex {loc s t} (h : Inv loc (some t) s)
    (ht : ∀ n, t ∈ (s.nodes n).wal → (s.nodes n).applied < (s.nodes n).idx t ∨
      (self s n t = true ∧ (s.callers t).finished = true)) : Inv loc none s := by
  refine ⟨h.net, h.net1, h.batch, h.batch1, h.log, h.log1, h.ent, h.own, h.app, h.base, h.waf, h.wal, h.wal0, ?_, h.fin,
    h.ansm, h.ans, h.did, h.did1, h.idx0⟩
  intro n u hw hi
  refine ⟨(h.walI n u hw hi).1, ?_⟩
  rcases (h.walI n u hw hi).2 with h1 | h1 | h1
  · exact Or.inl h1
  · exact Or.inr (Or.inl h1)
  · cases h1
    rcases ht n hw with h2 | h2
    · exact Or.inl h2
    · exact Or.inr (Or.inl h2)

theorem Inv.ex {loc s} (h : Inv loc none s) (ex : Option Req) : Inv loc ex s := by
  refine ⟨h.net, h.net1, h.batch, h.batch1, h.log, h.log1, h.ent, h.own, h.app, h.base, h.waf, h.wal, h.wal0, ?_, h.fin,
    h.ansm, h.ans, h.did, h.did1, h.idx0⟩
  intro n u hw hi
  refine ⟨(h.walI n u hw hi).1, ?_⟩
  rcases (h.walI n u hw hi).2 with h1 | h1 | h1
  · exact Or.inl h1
  · exact Or.inr (Or.inl h1)
  · exact nomatch h1

end Verif.Ticket

import Verif.Proofs.TicketApply

/-! Single changes of the state that keep the invariant. -/
namespace Verif.Ticket

/-- What the invariant says of node n, were it `nd`. -/
structure NodeOk (loc : Req → Loc) (s : S) (n : Nid) (nd : Node) : Prop where
  batch : ∀ t ∈ nd.batch, loc t = .batch n ∧ t < s.next ∧ nd.leading = true ∧
    ((s.callers t).fwd = true → (s.callers t).home ≠ n) ∧ ((s.callers t).fwd = false → self s n t = true)
  batch1 : nd.batch.Nodup
  ent : ∀ (i : Nat) (e : Entry), nd.log[i]? = some e →
    ∃ p ∈ s.logged, p.idx = i + 1 ∧ p.term = e.term ∧ p.what = e.what
  own : ∀ (i : Nat) (e : Entry) t, nd.log[i]? = some e → e.own = true → e.what = .req t →
    self s n t = true ∧ (s.callers t).fwd = false
  app : nd.applied ≤ nd.log.length
  base : nd.base ≤ nd.applied
  waf : ∀ t ∈ nd.waf, (s.callers t).home = n ∧ (s.callers t).fwd = true ∧
    (s.callers t).alive = true ∧ nd.idx t = 0 ∧ t < s.next ∧ (s.callers t).finished = false
  wal : ∀ t ∈ nd.wal, nd.leading = true ∧ t < s.next ∧
    ((s.callers t).fwd = true → (s.callers t).home ≠ n) ∧ ((s.callers t).fwd = false → self s n t = true)
  wal0 : ∀ t ∈ nd.wal, nd.idx t = 0 → loc t = .gone ∨ loc t = .lost
  walI : ∀ t ∈ nd.wal, 0 < nd.idx t →
    (∃ e : Entry, nd.log[nd.idx t - 1]? = some e ∧ e.what = .req t) ∧
    (nd.applied < nd.idx t ∨ (self s n t = true ∧ (s.callers t).finished = true))
  idx0 : ∀ t, 0 < nd.idx t → ∃ p ∈ s.logged, p.what = .req t

theorem Inv.nodeOk {loc s} (h : Inv loc none s) (n : Nid) : NodeOk loc s n (s.nodes n) := by
  refine ⟨h.batch n, h.batch1 n, h.ent n, h.own n, h.app n, h.base n, h.waf n, h.wal n, h.wal0 n, ?_, h.idx0 n⟩
  intro t ht hi
  refine ⟨(h.walI n t ht hi).1, ?_⟩
  rcases (h.walI n t ht hi).2 with h1 | h1 | h1
  · exact Or.inl h1
  · exact Or.inr h1
  · exact nomatch h1

/-- Changing one node. -/
theorem Inv.node {loc s} (h : Inv loc none s) (n : Nid) (f : Node → Node) (ok : NodeOk loc s n (f (s.nodes n)))
    (hl : ∀ (j : Nat) (e : Entry), j < (s.nodes n).applied → (s.nodes n).log[j]? = some e →
      ∃ e' : Entry, (f (s.nodes n)).log[j]? = some e' ∧ e'.what = e.what)
    (ha : (s.nodes n).applied ≤ (f (s.nodes n)).applied) : Inv loc none (s.setNode n f) := by
  have e1 : (s.setNode n f).nodes n = f (s.nodes n) := if_pos rfl
  have e2 : ∀ m, m ≠ n → (s.setNode n f).nodes m = s.nodes m := fun m hm => if_neg hm
  have hl' : ∀ m (j : Nat) (e : Entry), j < (s.nodes m).applied → (s.nodes m).log[j]? = some e →
      ∃ e' : Entry, ((s.setNode n f).nodes m).log[j]? = some e' ∧ e'.what = e.what := by
    intro m j e hj he
    by_cases hm : m = n
    · subst hm; rw [e1]; exact hl j e hj he
    · rw [e2 m hm]; exact ⟨e, he, rfl⟩
  have ha' : ∀ m, (s.nodes m).applied ≤ ((s.setNode n f).nodes m).applied := by
    intro m
    by_cases hm : m = n
    · subst hm; rw [e1]; exact ha
    · rw [e2 m hm]; exact Nat.le_refl _
  have hJ : ∀ t a, Just loc s t a → Just loc (s.setNode n f) t a := by
    intro t a h
    cases a with
    | ok i => exact h.mono hl' ha'
    | err w => exact h
  generalize hs' : s.setNode n f = s' at *
  have hc : s'.callers = s.callers := by rw [← hs']; rfl
  have hx : s'.next = s.next := by rw [← hs']; rfl
  have hm : s'.net = s.net := by rw [← hs']; rfl
  have hlg : s'.logged = s.logged := by rw [← hs']; rfl
  have hd : s'.did = s.did := by rw [← hs']; rfl
  have hself : ∀ n t, self s' n t = self s n t := fun n t => by unfold self; rw [hc]
  have hok : ∀ m, NodeOk loc s m (s'.nodes m) := by
    intro m
    by_cases hm : m = n
    · subst hm; rw [e1]; exact ok
    · rw [e2 m hm]; exact h.nodeOk m
  constructor
  · rw [hm, hx, hc]; exact h.net
  · rw [hm]; exact h.net1
  · intro m t ht; rw [hx, hc, hself]; exact (hok m).batch t ht
  · intro m; exact (hok m).batch1
  · rw [hlg, hx]; exact h.log
  · rw [hlg]; exact h.log1
  · intro m; rw [hlg]; exact (hok m).ent
  · intro m i e t; rw [hself, hc]; exact (hok m).own i e t
  · intro m; exact (hok m).app
  · intro m; exact (hok m).base
  · intro m t; rw [hc, hx]; exact (hok m).waf t
  · intro m t; rw [hc, hx, hself]; exact (hok m).wal t
  · intro m t; exact (hok m).wal0 t
  · intro m t ht hi
    rw [hc, hself]
    refine ⟨((hok m).walI t ht hi).1, ?_⟩
    rcases ((hok m).walI t ht hi).2 with h1 | h1
    · exact Or.inl h1
    · exact Or.inr (Or.inl h1)
  · rw [hc]; exact h.fin
  · intro t a; rw [hm, hx, hc]; intro hmem; have := h.ansm t a hmem; exact ⟨this.1, hJ _ _ this.2.1, this.2.2⟩
  · intro t a; rw [hx, hc]; intro hmem; have := h.ans t a hmem; exact ⟨this.1, hJ _ _ this.2⟩
  · intro x hxm
    rw [hd] at hxm
    obtain ⟨h1, h2, e, h3, h4⟩ := h.did x hxm
    obtain ⟨e', h5, h6⟩ := hl' x.1 (x.2.1 - 1) e (by omega) h3
    exact ⟨h1, Nat.le_trans h2 (ha' x.1), e', h5, h6.trans h4⟩
  · rw [hd]; exact h.did1
  · intro m t; rw [hlg]; exact (hok m).idx0 t

/-- Request t is in no forward under way, no batch and no log. -/
structure NoCarrier (s : S) (t : Req) : Prop where
  net : ∀ d, Msg.redirect d t ∉ s.net
  batch : ∀ n, t ∉ (s.nodes n).batch
  log : ∀ p ∈ s.logged, p.what ≠ .req t

def upd (loc : Req → Loc) (t : Req) (l : Loc) : Req → Loc := fun u => if u = t then l else loc u

/-- The location of a request without carrier may be chosen anew. -/
theorem Inv.reloc {loc s t} (h : Inv loc none s) (hn : NoCarrier s t) (l : Loc)
    (hg : l = .gone ∨ (loc t ≠ .gone ∧ loc t ≠ .lost) ∨
      (l = .lost ∧ (s.callers t).ans = none ∧ ∀ a, Msg.answer t a ∉ s.net)) :
    Inv (upd loc t l) none s := by
  have hu : ∀ u, u ≠ t → upd loc t l u = loc u := fun u hu => if_neg hu
  have ht : upd loc t l t = l := if_pos rfl
  have hnb : ∀ i, ¬ Backed s t i := by
    intro i hb
    obtain ⟨p, hp, _, hq⟩ := h.backed_logged hb
    exact hn.log p hp hq
  have hJ : ∀ u a, (u = t → (l = .gone ∨ (loc t ≠ .gone ∧ loc t ≠ .lost))) →
      Just loc s u a → Just (upd loc t l) s u a := by
    intro u a hor hj
    cases a with
    | ok i => exact hj
    | err w =>
      refine ⟨?_, hj.2⟩
      by_cases hut : u = t
      · subst hut
        rw [ht]
        rcases hor rfl with h1 | h1
        · exact h1
        · exact absurd hj.1 h1.1
      · rw [hu u hut]; exact hj.1
  refine ⟨?_, h.net1, ?_, h.batch1, ?_, h.log1, h.ent, h.own, h.app, h.base, h.waf, h.wal, ?_, h.walI, h.fin,
    ?_, ?_, h.did, h.did1, h.idx0⟩
  · intro d u hm
    have : u ≠ t := fun e => hn.net d (e ▸ hm)
    rw [hu u this]; exact h.net d u hm
  · intro n u hm
    have : u ≠ t := fun e => hn.batch n (e ▸ hm)
    rw [hu u this]; exact h.batch n u hm
  · intro p hp u hq
    have : u ≠ t := fun e => hn.log p hp (e ▸ hq)
    rw [hu u this]; exact h.log p hp u hq
  · intro n u hw hi
    by_cases hut : u = t
    · subst hut
      rw [ht]
      rcases hg with h1 | h1 | h1
      · exact Or.inl h1
      · rcases h.wal0 n u hw hi with h2 | h2
        · exact absurd h2 h1.1
        · exact absurd h2 h1.2
      · exact Or.inr h1.1
    · rw [hu u hut]; exact h.wal0 n u hw hi
  · intro u a hm
    refine ⟨(h.ansm u a hm).1, hJ u a ?_ (h.ansm u a hm).2.1, (h.ansm u a hm).2.2⟩
    intro hut
    rcases hg with h1 | h1 | h1
    · exact Or.inl h1
    · exact Or.inr h1
    · exact absurd (hut ▸ hm) (h1.2.2 a)
  · intro u a hm
    refine ⟨(h.ans u a hm).1, hJ u a ?_ (h.ans u a hm).2⟩
    intro hut
    rcases hg with h1 | h1 | h1
    · exact Or.inl h1
    · exact Or.inr h1
    · rw [hut, h1.2.1] at hm; exact nomatch hm

/-- A new record of an entry in a leader's log. -/
theorem Inv.record {loc s} (h : Inv loc none s) (p : Logged)
    (hp : ∀ t, p.what = .req t → loc t = .logged ∧ t < s.next ∧ ∀ q ∈ s.logged, q.what ≠ .req t) :
    Inv loc none { s with logged := s.logged ++ [p] } := by
  have hJ : ∀ u a, Just loc { s with logged := s.logged ++ [p] } u a = Just loc s u a := fun t a => by cases a <;> rfl
  refine ⟨h.net, h.net1, h.batch, h.batch1, ?_, ?_, ?_, h.own, h.app, h.base, h.waf, h.wal, h.wal0, h.walI, h.fin,
    ?_, ?_, h.did, h.did1, ?_⟩
  · intro q hq t ht
    rcases List.mem_append.1 hq with hq | hq
    · exact h.log q hq t ht
    · rw [List.mem_singleton] at hq; subst hq
      exact ⟨(hp t ht).1, (hp t ht).2.1⟩
  · rw [List.pairwise_append]
    refine ⟨h.log1, List.pairwise_singleton _ _, ?_⟩
    intro a ha b hb t hat
    rw [List.mem_singleton] at hb; subst hb
    intro hbt
    exact (hp t hbt).2.2 a ha hat
  · intro n i e he
    obtain ⟨q, hq, hr⟩ := h.ent n i e he
    exact ⟨q, List.mem_append_left _ hq, hr⟩
  · intro t a hm; rw [hJ]; exact h.ansm t a hm
  · intro t a hm; rw [hJ]; exact h.ans t a hm
  · intro n t hi
    obtain ⟨q, hq, hr⟩ := h.idx0 n t hi
    exact ⟨q, List.mem_append_left _ hq, hr⟩

/-- What else is recorded. -/
theorem Inv.acc {loc s} (h : Inv loc none s) (a : List (Nid × Nat × Req)) : Inv loc none { s with accepted := a } :=
  h.frame _ rfl rfl rfl rfl rfl (fun _ => ⟨rfl, rfl, rfl, rfl, rfl, rfl, rfl, rfl⟩)

/-- A new call. -/
theorem Inv.fresh {loc s} (h : Inv loc none s) (l : Loc) (c : Caller)
    (hc : (c.finished = false ∧ c.ans = none) ∨ (l = .gone ∧ c.ans = some (.err .noLeader))) :
    Inv (upd loc s.next l) none ({ s with next := s.next + 1 }.setCaller s.next fun _ => c) := by
  have hu : ∀ u, u < s.next → upd loc s.next l u = loc u := fun u hu => if_neg (Nat.ne_of_lt hu)
  have ht : upd loc s.next l s.next = l := if_pos rfl
  generalize hs' : ({ s with next := s.next + 1 }.setCaller s.next fun _ => c) = s'
  have hcl : ∀ u, u < s.next → s'.callers u = s.callers u := by
    intro u hu; rw [← hs']; exact if_neg (Nat.ne_of_lt hu)
  have hct : s'.callers s.next = c := by rw [← hs']; exact if_pos rfl
  have hcn : ∀ u, u ≠ s.next → s'.callers u = s.callers u := by
    intro u hu; rw [← hs']; exact if_neg hu
  have hself : ∀ n u, u < s.next → self s' n u = self s n u := fun n u h => by unfold self; rw [hcl u h]
  have hx : s'.next = s.next + 1 := by rw [← hs']; rfl
  have hm : s'.net = s.net := by rw [← hs']; rfl
  have hlg : s'.logged = s.logged := by rw [← hs']; rfl
  have hd : s'.did = s.did := by rw [← hs']; rfl
  have hnd : s'.nodes = s.nodes := by rw [← hs']; rfl
  have hJ : ∀ u a, u < s.next → Just loc s u a → Just (upd loc s.next l) s' u a := by
    intro u a hlt hj
    cases a with
    | ok i =>
      obtain ⟨n, hj⟩ := hj
      exact ⟨n, by rw [hnd]; exact hj⟩
    | err w => exact ⟨by rw [hu u hlt]; exact hj.1, hj.2⟩
  constructor
  · intro d t hmm
    rw [hm] at hmm
    have := h.net d t hmm
    rw [hu t this.2.1, hcl t this.2.1, hx]
    exact ⟨this.1, Nat.lt_succ_of_lt this.2.1, this.2.2⟩
  · rw [hm]; exact h.net1
  · intro n t hmm
    rw [hnd] at hmm ⊢
    have := h.batch n t hmm
    rw [hu t this.2.1, hcl t this.2.1, hx, hself n t this.2.1]
    exact ⟨this.1, Nat.lt_succ_of_lt this.2.1, this.2.2⟩
  · rw [hnd]; exact h.batch1
  · intro p hp t hq
    rw [hlg] at hp
    have := h.log p hp t hq
    rw [hu t this.2, hx]
    exact ⟨this.1, Nat.lt_succ_of_lt this.2⟩
  · rw [hlg]; exact h.log1
  · rw [hnd, hlg]; exact h.ent
  · intro n i e t he ho hq
    rw [hnd] at he
    obtain ⟨p, hp, _, _, hpq⟩ := h.ent n i e he
    have := (h.log p hp t (hpq.trans hq)).2
    rw [hself n t this, hcl t this]
    exact h.own n i e t he ho hq
  · rw [hnd]; exact h.app
  · rw [hnd]; exact h.base
  · intro n t hw
    rw [hnd] at hw ⊢
    have := h.waf n t hw
    rw [hcl t this.2.2.2.2.1, hx]
    exact ⟨this.1, this.2.1, this.2.2.1, this.2.2.2.1, Nat.lt_succ_of_lt this.2.2.2.2.1, this.2.2.2.2.2⟩
  · intro n t hw
    rw [hnd] at hw ⊢
    have := h.wal n t hw
    rw [hcl t this.2.1, hx, hself n t this.2.1]
    exact ⟨this.1, Nat.lt_succ_of_lt this.2.1, this.2.2⟩
  · intro n t hw hi
    rw [hnd] at hw hi
    rw [hu t (h.wal n t hw).2.1]
    exact h.wal0 n t hw hi
  · intro n t hw hi
    rw [hnd] at hw hi ⊢
    have := (h.wal n t hw).2.1
    rw [hcl t this, hself n t this]
    exact h.walI n t hw hi
  · intro t hf
    by_cases htn : t = s.next
    · subst htn
      rw [hct] at hf ⊢
      rcases hc with h1 | h1
      · rw [h1.1] at hf; exact nomatch hf
      · rw [h1.2]; exact fun hh => nomatch hh
    · rw [hcn t htn] at hf ⊢; exact h.fin t hf
  · intro t a hmm
    rw [hm] at hmm
    have := h.ansm t a hmm
    rw [hx, hcl t this.1]
    exact ⟨Nat.lt_succ_of_lt this.1, hJ t a this.1 this.2.1, this.2.2⟩
  · intro t a ha
    by_cases htn : t = s.next
    · subst htn
      rw [hct] at ha
      rcases hc with h1 | h1
      · rw [h1.2] at ha; exact nomatch ha
      · rw [h1.2] at ha
        cases ha
        exact ⟨by rw [hx]; exact Nat.lt_succ_self _, by rw [Just, ht]; exact ⟨h1.1, Or.inl rfl⟩⟩
    · rw [hcn t htn] at ha
      have := h.ans t a ha
      exact ⟨by rw [hx]; exact Nat.lt_succ_of_lt this.1, hJ t a this.1 this.2⟩
  · intro x hxm
    rw [hd] at hxm
    rw [hnd]; exact h.did x hxm
  · rw [hd]; exact h.did1
  · intro n t; rw [hnd, hlg]; exact h.idx0 n t

/-- A request without carrier, beyond all forwards, goes into a batch. -/
theorem Inv.toBatch {loc s t} (h : Inv loc none s) (hn : NoCarrier s t) (hg : loc t ≠ .gone ∧ loc t ≠ .lost)
    (n : Nid) (ht : t < s.next) (hl : (s.nodes n).leading = true)
    (hf : (s.callers t).fwd = true → (s.callers t).home ≠ n)
    (hf' : (s.callers t).fwd = false → self s n t = true) :
    Inv (upd loc t (.batch n)) none (s.setNode n fun nd => { nd with batch := nd.batch ++ [t] }) := by
  have h1 := h.reloc hn (.batch n) (Or.inr (Or.inl hg))
  have ok := h1.nodeOk n
  refine h1.node n _ { ok with batch := ?_, batch1 := ?_ } (fun j e _ he => ⟨e, he, rfl⟩) (Nat.le_refl _)
  · intro u hu
    rcases List.mem_append.1 hu with hu | hu
    · exact ok.batch u hu
    · rw [List.mem_singleton] at hu; subst hu
      exact ⟨if_pos rfl, ht, hl, hf, hf'⟩
  · dsimp only
    rw [List.nodup_append]
    refine ⟨ok.batch1, by simp, ?_⟩
    intro a ha b hb e
    rw [List.mem_singleton] at hb; subst hb; subst e
    exact hn.batch n ha

/-- The same request is held back for ever. -/
theorem Inv.toStall {loc s t} (h : Inv loc none s) (hn : NoCarrier s t)
    (n : Nid) (ht : t < s.next) (hl : (s.nodes n).leading = true)
    (hf : (s.callers t).fwd = true → (s.callers t).home ≠ n)
    (hf' : (s.callers t).fwd = false → self s n t = true) :
    Inv (upd loc t .gone) none (s.setNode n fun nd => { nd with wal := mset t nd.wal }) := by
  have h1 := h.reloc hn .gone (Or.inl rfl)
  have ok := h1.nodeOk n
  have hi0 : (s.nodes n).idx t = 0 := by
    by_cases hi : 0 < (s.nodes n).idx t
    · obtain ⟨p, hp, hq⟩ := h.idx0 n t hi
      exact absurd hq (hn.log p hp)
    · omega
  refine h1.node n _ { ok with wal := ?_, wal0 := ?_, walI := ?_ } (fun j e _ he => ⟨e, he, rfl⟩) (Nat.le_refl _)
  · intro u hu
    rcases (mem_mset _ _ _).1 hu with hu | hu
    · subst hu; exact ⟨hl, ht, hf, hf'⟩
    · exact ok.wal u hu
  · intro u hu hi
    rcases (mem_mset _ _ _).1 hu with hu | hu
    · subst hu; exact Or.inl (if_pos rfl)
    · exact ok.wal0 u hu hi
  · intro u hu hi
    rcases (mem_mset _ _ _).1 hu with hu | hu
    · subst hu; dsimp only at hi; omega
    · exact ok.walI u hu hi

end Verif.Ticket

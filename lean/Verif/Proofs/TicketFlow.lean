import Verif.Proofs.TicketMove

/-! Every event keeps the invariant: requests, forwards, answers. -/
namespace Verif.Ticket

/-- Requests that are nowhere stay so. -/
def Keep (k : Nat) (loc loc' : Req → Loc) : Prop :=
  ∀ t, t < k → (loc t = .gone → loc' t = .gone) ∧ (loc t = .lost → loc' t = .lost)

theorem Keep.refl (k loc) : Keep k loc loc := fun _ _ => ⟨id, id⟩

theorem Keep.upd {k : Nat} {loc : Req → Loc} {t : Req} (l : Loc) (hg : loc t ≠ .gone ∧ loc t ≠ .lost) :
    Keep k loc (upd loc t l) := by
  intro u _
  by_cases hu : u = t
  · subst hu; exact ⟨fun h => absurd h hg.1, fun h => absurd h hg.2⟩
  · have : Ticket.upd loc t l u = loc u := if_neg hu
    rw [this]; exact ⟨id, id⟩

theorem Keep.new {k : Nat} {loc : Req → Loc} (l : Loc) : Keep k loc (Ticket.upd loc k l) := by
  intro u hu
  have : Ticket.upd loc k l u = loc u := if_neg (Nat.ne_of_lt hu)
  rw [this]; exact ⟨id, id⟩

theorem Keep.trans {k k' loc loc' loc''} (h : Keep k loc loc') (h' : Keep k' loc' loc'') (hk : k ≤ k') :
    Keep k loc loc'' := fun t ht =>
  ⟨fun h1 => (h' t (Nat.lt_of_lt_of_le ht hk)).1 ((h t ht).1 h1),
   fun h1 => (h' t (Nat.lt_of_lt_of_le ht hk)).2 ((h t ht).2 h1)⟩

/-- The conclusion for one step. -/
def Ok (loc : Req → Loc) (k : Nat) (s' : S) : Prop := ∃ loc', Inv loc' none s' ∧ Keep k loc loc'

theorem Inv.ok {loc s} (h : Inv loc none s) (k : Nat) : Ok loc k s := ⟨loc, h, Keep.refl _ _⟩

theorem Inv.replicate {loc s t} (h : Inv loc none s) (hn : NoCarrier s t) (hg : loc t ≠ .gone ∧ loc t ≠ .lost)
    (n : Nid) (ht : t < s.next) (hl : (s.nodes n).leading = true)
    (hf : (s.callers t).fwd = true → (s.callers t).home ≠ n)
    (hf' : (s.callers t).fwd = false → self s n t = true) :
    ∃ l, Inv (upd loc t l) none (replicate s n t) := by
  unfold Ticket.replicate
  generalize hF : (fun nd : Node => if nd.stamp t = 0 then
      { nd with
        stamp := fun u => if u = t then nd.nstamp + 1 else nd.stamp u
        nstamp := nd.nstamp + 1 }
    else nd) = F
  dsimp only
  have hFe : ∀ nd : Node, (F nd).leading = nd.leading ∧ (F nd).waf = nd.waf ∧ (F nd).wal = nd.wal ∧
      (F nd).batch = nd.batch ∧ (F nd).idx = nd.idx ∧ (F nd).log = nd.log ∧
      (F nd).applied = nd.applied ∧ (F nd).base = nd.base := by
    intro nd; rw [← hF]; dsimp only; split <;> exact ⟨rfl, rfl, rfl, rfl, rfl, rfl, rfl, rfl⟩
  have hfr : ∀ m, ((s.setNode n F).nodes m).leading = (s.nodes m).leading ∧ ((s.setNode n F).nodes m).waf = (s.nodes m).waf ∧
      ((s.setNode n F).nodes m).wal = (s.nodes m).wal ∧ ((s.setNode n F).nodes m).batch = (s.nodes m).batch ∧
      ((s.setNode n F).nodes m).idx = (s.nodes m).idx ∧ ((s.setNode n F).nodes m).log = (s.nodes m).log ∧
      ((s.setNode n F).nodes m).applied = (s.nodes m).applied ∧ ((s.setNode n F).nodes m).base = (s.nodes m).base := by
    intro m
    simp only [S.setNode]
    by_cases hm : m = n
    · subst hm; simp only [if_pos]; exact hFe _
    · simp only [if_neg hm]; exact ⟨trivial, trivial, trivial, trivial, trivial, trivial, trivial, trivial⟩
  have h1 := h.frame (s.setNode n F) rfl rfl rfl rfl rfl hfr
  have hn1 : NoCarrier (s.setNode n F) t := ⟨hn.net, fun m => by rw [(hfr m).2.2.2.1]; exact hn.batch m, hn.log⟩
  have hl1 : ((s.setNode n F).nodes n).leading = true := by rw [(hfr n).1]; exact hl
  split
  · exact ⟨_, (h1.toBatch hn1 hg n ht hl1 hf hf').acc _⟩
  · exact ⟨_, h1.toStall hn1 n ht hl1 hf hf'⟩

/-- A new request has no carrier. -/
theorem Inv.noCarrier_next {loc s} (h : Inv loc none s) {s' : S} (hm : s'.net = s.net) (hnd : s'.nodes = s.nodes)
    (hl : s'.logged = s.logged) : NoCarrier s' s.next := by
  refine ⟨fun d hd => ?_, fun n hb => ?_, fun p hp hq => ?_⟩
  · rw [hm] at hd; exact Nat.lt_irrefl _ (h.net d _ hd).2.1
  · rw [hnd] at hb; exact Nat.lt_irrefl _ (h.batch n _ hb).2.1
  · rw [hl] at hp; exact Nat.lt_irrefl _ (h.log p hp _ hq).2

theorem Inv.sendRedirect {loc s t} (h : Inv loc none s) (hn : NoCarrier s t) (d : Nid) (hl : loc t = .net d)
    (ht : t < s.next) (hd : (s.callers t).home ≠ d) (hf : (s.callers t).fwd = true) :
    Inv loc none (s.send (.redirect d t)) := by
  have hJ : ∀ u a, Just loc (s.send (.redirect d t)) u a = Just loc s u a := fun t a => by cases a <;> rfl
  refine ⟨?_, ?_, h.batch, h.batch1, h.log, h.log1, h.ent, h.own, h.app, h.base, h.waf, h.wal, h.wal0, h.walI, h.fin,
    ?_, ?_, h.did, h.did1, h.idx0⟩
  · intro d' u hm
    simp only [S.send, List.mem_append, List.mem_singleton] at hm
    rcases hm with hm | hm
    · exact h.net d' u hm
    · cases hm; exact ⟨hl, ht, hd, hf⟩
  · simp only [S.send, List.pairwise_append]
    refine ⟨h.net1, List.pairwise_singleton _ _, ?_⟩
    intro a ha b hb
    rw [List.mem_singleton] at hb; subst hb
    intro u e e' ha' hb'
    cases hb'
    subst ha'
    exact hn.net e ha
  · intro u a hm
    rw [hJ]
    simp only [S.send, List.mem_append, List.mem_singleton] at hm
    rcases hm with hm | hm
    · exact h.ansm u a hm
    · exact nomatch hm
  · intro u a hm; rw [hJ]; exact h.ans u a hm

/-- Node n notes a ticket it has sent on. -/
theorem Inv.toWaf {loc s t} (h : Inv loc none s) (n : Nid) (hh : (s.callers t).home = n)
    (hf : (s.callers t).fwd = true) (ha : (s.callers t).alive = true) (ht : t < s.next)
    (hfin : (s.callers t).finished = false) (hi : (s.nodes n).idx t = 0) :
    Inv loc none (s.setNode n fun nd => { nd with waf := mset t nd.waf }) := by
  have ok := h.nodeOk n
  refine h.node n _ { ok with waf := ?_ } (fun j e _ he => ⟨e, he, rfl⟩) (Nat.le_refl _)
  intro u hu
  rcases (mem_mset _ _ _).1 hu with hu | hu
  · subst hu; exact ⟨hh, hf, ha, hi, ht, hfin⟩
  · exact ok.waf u hu

theorem Inv.submit {loc s} (h : Inv loc none s) (n : Nid) (ckt arrives fails : Bool) :
    Ok loc s.next (submit s n ckt arrives fails) := by
  unfold Ticket.submit
  dsimp only
  by_cases hl : (s.nodes n).leading = true
  · rw [if_pos hl]
    have h1 := h.fresh (.net 0) { home := n, alive := true } (Or.inl ⟨rfl, rfl⟩)
    obtain ⟨l, h2⟩ := h1.replicate (t := s.next) (h.noCarrier_next rfl rfl rfl)
      (by rw [show Ticket.upd loc s.next (.net 0) s.next = .net 0 from if_pos rfl]; exact ⟨(fun e => nomatch e), (fun e => nomatch e)⟩)
      n (Nat.lt_succ_self _) hl (by simp [S.setCaller]) (by simp [S.setCaller, self])
    refine ⟨_, h2, ?_⟩
    refine (Keep.new (.net 0)).trans (Keep.upd l ?_) (Nat.le_refl _)
    rw [show Ticket.upd loc s.next (.net 0) s.next = .net 0 from if_pos rfl]
    exact ⟨(fun e => nomatch e), (fun e => nomatch e)⟩
  · rw [if_neg hl]
    generalize hF : (fun nd : Node => if nd.leader = some n then { nd with leader := none } else nd) = F
    have hFe : ∀ nd : Node, (F nd).leading = nd.leading ∧ (F nd).waf = nd.waf ∧ (F nd).wal = nd.wal ∧
        (F nd).batch = nd.batch ∧ (F nd).idx = nd.idx ∧ (F nd).log = nd.log ∧
        (F nd).applied = nd.applied ∧ (F nd).base = nd.base := by
      intro nd; rw [← hF]; dsimp only; split <;> exact ⟨rfl, rfl, rfl, rfl, rfl, rfl, rfl, rfl⟩
    have hself : ∀ nd : Node, (F nd).leader ≠ some n := by
      intro nd; rw [← hF]; dsimp only; split
      · exact fun e => nomatch e
      · assumption
    have hfr : ∀ c : Caller, ∀ m,
        ((({ s with next := s.next + 1 }.setCaller s.next fun _ => c).setNode n F).nodes m).leading = (s.nodes m).leading ∧
        ((({ s with next := s.next + 1 }.setCaller s.next fun _ => c).setNode n F).nodes m).waf = (s.nodes m).waf ∧
        ((({ s with next := s.next + 1 }.setCaller s.next fun _ => c).setNode n F).nodes m).wal = (s.nodes m).wal ∧
        ((({ s with next := s.next + 1 }.setCaller s.next fun _ => c).setNode n F).nodes m).batch = (s.nodes m).batch ∧
        ((({ s with next := s.next + 1 }.setCaller s.next fun _ => c).setNode n F).nodes m).idx = (s.nodes m).idx ∧
        ((({ s with next := s.next + 1 }.setCaller s.next fun _ => c).setNode n F).nodes m).log = (s.nodes m).log ∧
        ((({ s with next := s.next + 1 }.setCaller s.next fun _ => c).setNode n F).nodes m).applied = (s.nodes m).applied ∧
        ((({ s with next := s.next + 1 }.setCaller s.next fun _ => c).setNode n F).nodes m).base = (s.nodes m).base := by
      intro c m
      simp only [S.setNode, S.setCaller]
      by_cases hm : m = n
      · subst hm; simp only [if_pos]; exact hFe _
      · simp only [if_neg hm]; exact ⟨trivial, trivial, trivial, trivial, trivial, trivial, trivial, trivial⟩
    have hcomm : ∀ c : Caller, (({ s with next := s.next + 1 }.setNode n F).setCaller s.next fun _ => c) =
        (({ s with next := s.next + 1 }.setCaller s.next fun _ => c).setNode n F) := fun c => rfl
    have hno : Ok loc s.next (({ s with next := s.next + 1 }.setNode n F).setCaller s.next fun _ =>
        { home := n, alive := true, finished := true, ans := some (.err .noLeader) }) := by
      rw [hcomm]
      exact ⟨_, (h.fresh .gone _ (Or.inr ⟨rfl, rfl⟩)).frame _ rfl rfl rfl rfl rfl (hfr _), Keep.new _⟩
    split
    · exact hno
    · rename_i l hle
      have hne : l ≠ n := by
        intro e
        refine hself (s.nodes n) ?_
        have : ({ s with next := s.next + 1 }.setNode n F).nodes n = F (s.nodes n) := if_pos rfl
        rw [this, e] at hle; exact hle
      split
      · rw [hcomm]
        have h1 := (h.fresh (.net l) { home := n, alive := true, fwd := true } (Or.inl ⟨rfl, rfl⟩)).frame
          (({ s with next := s.next + 1 }.setCaller s.next fun _ => ({ home := n, alive := true, fwd := true } : Caller)).setNode n F)
          rfl rfl rfl rfl rfl (hfr _)
        generalize hs2 : (({ s with next := s.next + 1 }.setCaller s.next fun _ => ({ home := n, alive := true, fwd := true } : Caller)).setNode n F) = s2 at h1
        have hc2 : s2.callers s.next = { home := n, alive := true, fwd := true } := by rw [← hs2]; exact if_pos rfl
        have hx2 : s.next < s2.next := by rw [← hs2]; exact Nat.lt_succ_self _
        have hn2 : NoCarrier s2 s.next := by
          have h0 : NoCarrier s s.next := h.noCarrier_next rfl rfl rfl
          refine ⟨?_, ?_, ?_⟩
          · rw [← hs2]; exact h0.net
          · intro m; rw [← hs2, (hfr _ m).2.2.2.1]; exact h0.batch m
          · rw [← hs2]; exact h0.log
        have hi2 : (s2.nodes n).idx s.next = 0 := by
          rcases Nat.eq_zero_or_pos ((s2.nodes n).idx s.next) with hi | hi
          · exact hi
          · obtain ⟨p, hp, hq⟩ := h1.idx0 n _ hi
            exact absurd hq (hn2.log p hp)
        have h3 : Inv (Ticket.upd loc s.next (.net l)) none (if arrives then s2.send (.redirect l s.next) else s2) := by
          split
          · exact h1.sendRedirect hn2 l (if_pos rfl) hx2 (by rw [hc2]; exact fun e => hne e.symm) (by rw [hc2])
          · exact h1
        generalize hs3 : (if arrives then s2.send (.redirect l s.next) else s2) = s3 at h3
        have hc3 : s3.callers s.next = { home := n, alive := true, fwd := true } := by
          rw [← hs3, ← hc2]; split <;> rfl
        have hx3 : s.next < s3.next := by rw [← hs3]; split <;> exact hx2
        have hi3 : (s3.nodes n).idx s.next = 0 := by rw [← hs3]; split <;> exact hi2
        split
        · exact ⟨_, h3, Keep.new _⟩
        · exact ⟨_, h3.toWaf n (by rw [hc3]) (by rw [hc3]) (by rw [hc3]) hx3 (by rw [hc3]) hi3, Keep.new _⟩
      · exact hno

/-- No second forward of a request is under way. -/
theorem not_mem_eraseIdx {l : List Msg} (h : l.Pairwise notSame) {i : Nat} {d : Nid} {t : Req}
    (hi : l[i]? = some (.redirect d t)) (d' : Nid) : Msg.redirect d' t ∉ l.eraseIdx i := by
  obtain ⟨hlt, he⟩ := List.getElem?_eq_some_iff.1 hi
  have hsplit : l = l.take i ++ (.redirect d t) :: l.drop (i + 1) := by
    rw [← he]; simp
  rw [hsplit, List.pairwise_append, List.pairwise_cons] at h
  obtain ⟨_, ⟨h2, _⟩, h3⟩ := h
  rw [List.eraseIdx_eq_take_drop_succ, List.mem_append]
  rintro (hm | hm)
  · exact h3 _ hm _ (List.mem_cons_self ..) t d' d rfl rfl
  · exact h2 _ hm t d d' rfl rfl

theorem Inv.onRedirect {loc s t d} (h : Inv loc none s) (hn : NoCarrier s t) (hloc : loc t = .net d)
    (ht : t < s.next) (hd : (s.callers t).home ≠ d) (hf : (s.callers t).fwd = true) (k : Nat) :
    Ok loc k (onRedirect s d t) := by
  have hg : loc t ≠ .gone ∧ loc t ≠ .lost := by rw [hloc]; exact ⟨(fun e => nomatch e), (fun e => nomatch e)⟩
  unfold Ticket.onRedirect
  by_cases hl : (s.nodes d).leading = true
  · rw [if_pos hl]
    obtain ⟨l, h1⟩ := h.replicate hn hg d ht hl (fun _ => hd) (fun e => by rw [hf] at e; exact nomatch e)
    exact ⟨_, h1, Keep.upd l hg⟩
  · rw [if_neg hl]
    have hs : self s d t ≠ true := by
      unfold Ticket.self
      intro e
      rw [Bool.and_eq_true] at e
      exact hd (beq_iff_eq.1 e.1)
    rw [if_neg hs]
    have h1 := h.reloc hn .gone (Or.inl rfl)
    have hj : Just (Ticket.upd loc t .gone) s t (.err .notLeader) := ⟨if_pos rfl, Or.inr rfl⟩
    have h2 := h1.send (.answer t (.err .notLeader)) (fun _ _ e => nomatch e)
      (fun u a e => by cases e; exact ⟨ht, hj, fun _ _ => hf⟩)
    exact ⟨_, h2.finishCopy d false t (.err .notLeader) ht hj, Keep.upd _ hg⟩

/-- The LogIndex of a ticket a node does not hold. -/
theorem Inv.setIdx {loc s} (h : Inv loc none s) (n : Nid) (t : Req) (i : Nat) (hw : t ∉ (s.nodes n).waf)
    (hw' : t ∉ (s.nodes n).wal) (hi : 0 < i → ∃ p ∈ s.logged, p.what = .req t) :
    Inv loc none (s.setNode n fun nd => { nd with idx := fun u => if u = t then i else nd.idx u }) := by
  have ok := h.nodeOk n
  refine h.node n _ { ok with waf := ?_, wal0 := ?_, walI := ?_, idx0 := ?_ } (fun j e _ he => ⟨e, he, rfl⟩) (Nat.le_refl _)
  · intro u hu
    have : u ≠ t := fun e => hw (e ▸ hu)
    simp only [if_neg this]; exact ok.waf u hu
  · intro u hu
    have : u ≠ t := fun e => hw' (e ▸ hu)
    simp only [if_neg this]; exact ok.wal0 u hu
  · intro u hu
    have : u ≠ t := fun e => hw' (e ▸ hu)
    simp only [if_neg this]; exact ok.walI u hu
  · intro u hu
    by_cases hut : u = t
    · subst hut; simp only [if_pos] at hu; exact hi hu
    · simp only [if_neg hut] at hu; exact ok.idx0 u hu

theorem Inv.onAnswer {loc s t a} (h : Inv loc none s) (ht : t < s.next) (hj : Just loc s t a)
    (hfw : ∀ w, a = .err w → (s.callers t).fwd = true) : Inv loc none (onAnswer s t a) := by
  unfold Ticket.onAnswer
  dsimp only
  by_cases hw : t ∈ (s.nodes (s.callers t).home).waf
  · rw [if_pos (Or.inl hw)]
    obtain ⟨_, hf, _, _, _, hfin⟩ := h.waf _ t hw
    generalize hh : (s.callers t).home = n at *
    have e1 : Ticket.finishOwn (s.setNode n fun nd => { nd with idx := fun u => if u = t then a.idx else nd.idx u }) n false t a =
        ((Ticket.delWaiting s n false t).setNode n fun nd => { nd with idx := fun u => if u = t then a.idx else nd.idx u }).setCaller t
          fun c => { c with finished := true, ans := c.ans.or (some a) } := by
      rw [finishOwn_eq (s.setNode n _) _ _ _ _ hfin]
      simp only [Ticket.delWaiting, S.setNode, S.setCaller]
      congr 1
      funext m
      by_cases hm : m = n
      · subst hm; simp
      · simp [hm]
    rw [e1]
    have h1 := h.delWaiting n false t
    have hj1 := just_delWaiting loc s n false t t a hj
    have hnw : t ∉ ((Ticket.delWaiting s n false t).nodes n).waf := by
      intro hm; have := (delWaiting_mem hm).2 rfl; exact nomatch this
    have hnw' : t ∉ ((Ticket.delWaiting s n false t).nodes n).wal := by
      intro hm
      exact (h1.wal n t hm).2.2.1 hf hh
    have h2 := h1.setIdx n t a.idx hnw hnw' (by
      intro hi
      cases a with
      | err w => exact absurd hi (Nat.lt_irrefl _)
      | ok i =>
        obtain ⟨p, hp, _, hq⟩ := h.backed_logged hj
        exact ⟨p, hp, hq⟩)
    apply h2.caller
    · intro c; exact ⟨rfl, rfl, rfl⟩
    · intro _; rfl
    · intro m hm
      exfalso
      have := (h2.waf m t hm).1
      have hmn : m = n := by
        rw [← this, ← hh]; rfl
      subst hmn
      apply hnw
      simpa [S.setNode] using hm
    · intro _
      generalize (S.callers _ t).ans = o
      cases o <;> simp
    · intro b hb
      have hcc : ((Ticket.delWaiting s n false t).setNode n fun nd =>
        { nd with idx := fun u => if u = t then a.idx else nd.idx u }).callers = s.callers := rfl
      rw [hcc] at hb
      cases ho : (s.callers t).ans with
      | none =>
        simp only [ho, Option.none_or, Option.some.injEq] at hb; subst hb
        refine ⟨ht, ?_⟩
        cases a with
        | err w => exact hj
        | ok i =>
          refine Backed.mono hj1 ?_ ?_
          · intro m j e _ he
            refine ⟨e, ?_, rfl⟩
            simp only [S.setNode]
            by_cases hm : m = n
            · subst hm; simpa using he
            · simpa [hm] using he
          · intro m
            simp only [S.setNode]
            by_cases hm : m = n
            · subst hm; simp
            · simp [hm]
      | some c =>
        simp only [ho, Option.some_or, Option.some.injEq] at hb; subst hb
        exact h2.ans t c ho
  · by_cases hw' : t ∈ (s.nodes (s.callers t).home).wal
    · rw [if_pos (Or.inr hw')]
      have hwal := h.wal _ t hw'
      have hfd : (s.callers t).fwd = false := by
        cases hf : (s.callers t).fwd with
        | false => rfl
        | true => exact absurd rfl (hwal.2.2.1 hf)
      cases a with
      | err w => rw [hfw w rfl] at hfd; exact nomatch hfd
      | ok i =>
        obtain ⟨p, hp, hpi, hq⟩ := h.backed_logged hj
        have hidx : (s.nodes (s.callers t).home).idx t = i := by
          rcases Nat.eq_zero_or_pos ((s.nodes (s.callers t).home).idx t) with hi | hi
          · exfalso
            have h0 := h.wal0 _ t hw' hi
            rw [(h.log p hp t hq).1] at h0
            rcases h0 with h0 | h0 <;> exact nomatch h0
          · obtain ⟨⟨e, he, heq⟩, _⟩ := h.walI _ t hw' hi
            obtain ⟨p', hp', hpi', _, hq'⟩ := h.ent _ _ e he
            have := h.unique hp hp' hq (hq'.trans heq)
            subst this
            omega
        have e1 : (s.setNode (s.callers t).home fun nd =>
            { nd with idx := fun u => if u = t then (Ans.ok i).idx else nd.idx u }) = s := by
          have : ∀ m, (s.setNode (s.callers t).home fun nd =>
            { nd with idx := fun u => if u = t then (Ans.ok i).idx else nd.idx u }).nodes m = s.nodes m := by
            intro m
            simp only [S.setNode, Ans.idx]
            by_cases hm : m = (s.callers t).home
            · rw [if_pos hm, hm]
              have : (fun u => if u = t then i else (s.nodes (s.callers t).home).idx u) = (s.nodes (s.callers t).home).idx := by
                funext u
                by_cases hu : u = t
                · rw [if_pos hu, hu, hidx]
                · rw [if_neg hu]
              rw [this]
            · rw [if_neg hm]
          have h2 := funext this
          simp only [S.setNode] at h2 ⊢
          rw [h2]
        rw [e1]
        refine h.finishOwn _ false t (.ok i) ht hj ?_
        intro m hm
        rw [(h.waf m t hm).2.1] at hfd; exact nomatch hfd
    · rw [if_neg (fun hh => hh.elim hw hw')]
      exact h

theorem just_net (loc) (s : S) (l : List Msg) (t a) : Just loc { s with net := l } t a = Just loc s t a := by
  cases a <;> rfl

theorem Inv.deliver {loc s} (h : Inv loc none s) (i : Nat) (k : Nat) : Ok loc k (deliver s i) := by
  unfold Ticket.deliver
  cases hi : s.net[i]? with
  | none => exact h.ok k
  | some m =>
    have hmem : m ∈ s.net := List.mem_of_getElem? hi
    have h1 := h.sub (s.net.eraseIdx i) (List.eraseIdx_sublist ..)
    dsimp only
    cases m with
    | redirect d t =>
      obtain ⟨a1, a2, a3, a4⟩ := h.net d t hmem
      refine h1.onRedirect ⟨?_, ?_, ?_⟩ a1 a2 a3 a4 k
      · exact not_mem_eraseIdx h.net1 hi
      · intro n hb; have := (h.batch n t hb).1; rw [a1] at this; exact nomatch this
      · intro p hp hq; have := (h.log p hp t hq).1; rw [a1] at this; exact nomatch this
    | answer t a =>
      obtain ⟨a1, a2, a3⟩ := h.ansm t a hmem
      exact (h1.onAnswer (t := t) (a := a) a1 (by rw [just_net]; exact a2) a3).ok k
    | stepped t l =>
      refine (h1.frame (Ticket.onStepped { s with net := s.net.eraseIdx i } t l) rfl rfl rfl rfl rfl ?_).ok k
      intro m
      dsimp only [onStepped, S.setNode]
      by_cases hm : m = (s.callers t).home
      · rw [if_pos hm, hm]
        cases l <;> exact ⟨rfl, rfl, rfl, rfl, rfl, rfl, rfl, rfl⟩
      · rw [if_neg hm]; exact ⟨rfl, rfl, rfl, rfl, rfl, rfl, rfl, rfl⟩

end Verif.Ticket

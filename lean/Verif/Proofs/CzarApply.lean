import Verif.Proofs.CzarStep
/-
The invariant of Proofs/CzarInv, concluded: writes of the key; all events; all executions.
-/
namespace Verif.Czar
open Verif.KV (Key Store Leaf Ticket lookup put erase leafOf doCAS)

/-- How the key changes by a write of member `q.src`. -/
structure Grow (c : Cfg) (s : Sys) (q : Req) (t : Nat) (l' : Leaf) : Prop where
  more : (l'.epoch = keyEpoch s ∧ (l'.epoch, q.src) ∈ s.owner) ∨ l'.epoch = keyEpoch s + 1
  endTm : ∀ l, keyLeaf s = some l → l.endTm ≤ l'.endTm
  pos : 0 < l'.endTm
  past : Synced c → l'.epoch = keyEpoch s + 1 → ∀ l, keyLeaf s = some l → ∀ i, l.endTm < c.clk i t
  req : (s.mem q.src).vers.epoch = q.epoch → (s.mem q.src).vers.until_ ≤ l'.endTm
  old : q.epoch = 0 ∨ l'.epoch = q.epoch ∨ l'.epoch = q.epoch + 1

theorem Inv.grow {c : Cfg} {s : Sys} {q : Req} {n r t : Nat} {R l'} (hs : Sane c) (h : Inv c s)
    (hr : r ≤ t) (hq : q ∈ s.reqs) (ho : Out c s.kv q (c.lclk n r) R (keyLeaf s)) (hw : Wrote c q (c.lclk n r) R l') :
    Grow c s q t l' := by
  have hpos : 0 < c.lclk n r := hs.stamps n r
  have hdur := hs.dur
  have hdr := hs.drift
  have he := hw.endTm
  have hm := h.mem q.src
  cases hl : keyLeaf s with
  | none =>
    have hE : keyEpoch s = 0 := by unfold keyEpoch; rw [hl]; rfl
    rw [hl] at ho
    cases ho with
    | missing a b d e => rw [hw.err] at d; cases d
    | fresh h1 h2 h3 =>
      have : some l' = some _ := hw.leaf.symm.trans h3.leaf
      cases this
      refine ⟨Or.inr (by omega), (by rw [hl]; intro l e; cases e), by omega, (by rw [hl]; intro _ _ l e; cases e), ?_, Or.inl h1⟩
      intro e
      have := hm.zero (by omega)
      omega
  | some l =>
    have hE : keyEpoch s = l.epoch := by unfold keyEpoch; rw [hl]; rfl
    obtain ⟨k1, k2, k3, p, k4, k5, k6, k7⟩ := h.key.leaf l hl
    rw [hl] at ho
    cases ho with
    | refused a b => rw [hw.err] at b; cases b
    | extend h1 h2 h3 h4 h5 =>
      have : some l' = some _ := hw.leaf.symm.trans h5.leaf
      cases this
      have hp : p = q.src := hs.distinct _ _ (k5.symm.trans h2)
      subst hp
      refine ⟨Or.inl ⟨by omega, by rw [h4]; exact k4⟩, ?_, by omega, ?_, ?_, ?_⟩
      · rw [hl]; intro l0 e; cases e; omega
      · intro _ e; omega
      · intro e
        rcases h1 with h1 | h1
        · have := hm.zero (by omega); omega
        · have := hm.hold l hl (by rw [e, h1]; exact k4); omega
      · rcases h1 with h1 | h1
        · exact Or.inl h1
        · exact Or.inr (Or.inl (by omega))
    | take h1 h2 h4 h5 =>
      have : some l' = some _ := hw.leaf.symm.trans h5.leaf
      cases this
      have h2 : l.endTm + c.drift < c.lclk n r := by
        rcases h2 with e | e | e
        · exact absurd e k1
        · omega
        · exact e.1
      refine ⟨Or.inr (by omega), ?_, by omega, ?_, ?_, ?_⟩
      · rw [hl]; intro l0 e; cases e; omega
      · intro hy _ l0 e i
        rw [hl] at e; cases e
        have := hy n i r
        have := hs.mono i r t hr
        omega
      · intro _
        have := hm.bound l hl
        omega
      · rcases h1 with h1 | h1
        · exact Or.inl h1
        · exact Or.inr (Or.inr (by omega))

theorem Inv.written {c s q t l' k R} (hs : Sane c) (h : Inv c s) (ht : s.now ≤ t)
    (hk : s.reqs[k]? = some q) (hw : leafOf R tableName keyName = some l') (hl1 : l'.leasor = (c.det q.src).name)
    (hl2 : l'.leasorPeer = (c.det q.src).peerID) (hg : Grow c s q t l') {a : Ticket} (ha1 : a.err = none)
    (ha2 : a.epoch = l'.epoch) (ha3 : a.endTm = l'.endTm) {idx : Nat} :
    Inv c { s with kv := R, cur := q.list, idx := idx, ans := s.ans ++ [(k, a, s.cur)],
                   owner := s.owner ++ [(a.epoch, q.src)], now := t } := by
  have hdr := hs.drift
  have hqm := List.mem_of_getElem? hk
  have hq := h.reqs q hqm
  have key : keyLeaf { s with kv := R, cur := q.list, idx := idx, ans := s.ans ++ [(k, a, s.cur)], owner := s.owner ++ [(a.epoch, q.src)], now := t } = some l' := hw
  have hE : keyEpoch { s with kv := R, cur := q.list, idx := idx, ans := s.ans ++ [(k, a, s.cur)], owner := s.owner ++ [(a.epoch, q.src)], now := t } = l'.epoch := by
    unfold keyEpoch; rw [key]; rfl
  have hle : keyEpoch s ≤ l'.epoch := by rcases hg.more with e | e <;> omega
  -- an owner pair that is new has a new epoch
  have hown : ∀ e p, (e, p) ∈ s.owner ++ [(a.epoch, q.src)] → (e, p) ∈ s.owner ∨
      (e = l'.epoch ∧ p = q.src ∧ e = keyEpoch s + 1) := by
    intro e p hp
    rcases List.mem_append.1 hp with hp | hp
    · exact Or.inl hp
    · simp at hp
      obtain ⟨h1, h2⟩ := hp
      subst h1; subst h2
      rcases hg.more with e | e
      · exact Or.inl (by rw [ha2]; exact e.2)
      · exact Or.inr ⟨ha2, rfl, by omega⟩
  have keyS : ∀ l, keyLeaf s = some l → keyEpoch s = l.epoch := by
    intro l hl; unfold keyEpoch; rw [hl]; rfl
  have keyN : keyLeaf s = none → keyEpoch s = 0 := by
    intro hl; unfold keyEpoch; rw [hl]; rfl
  refine ⟨⟨?_, ?_, ?_⟩, ?_, ?_, ?_, h.pings, ?_, ?_⟩
  · intro l e
    rw [key] at e; cases e
    refine ⟨by rw [hl1]; exact hs.names _, hg.pos, ?_, q.src, ?_, hl1, hl2, hq.2⟩
    · rcases hg.more with e | e
      · exact (h.key.le _ _ e.2).1
      · omega
    · rw [← ha2]; simp
  · intro e p hp
    rw [hE]
    rcases hown e p hp with hp | ⟨h1, -, h2⟩
    · have := h.key.le e p hp; omega
    · omega
  · intro e p p' hp hp'
    rcases hown e p hp with h1 | h1 <;> rcases hown e p' hp' with h2 | h2
    · exact h.key.one _ _ _ h1 h2
    · have := h.key.le e p h1; omega
    · have := h.key.le e p' h2; omega
    · exact h1.2.1.trans h2.2.1.symm
  · intro i
    show MInv c _ i (s.mem i)
    have hm := h.mem i
    have hown' : ((s.mem i).vers.epoch, i) ∈ s.owner ++ [(a.epoch, q.src)] → ((s.mem i).vers.epoch, i) ∈ s.owner := by
      intro hp
      rcases hown _ _ hp with e | e
      · exact e
      · have := hm.le; omega
    refine ⟨?_, hm.zero, ?_, ?_, ?_, ?_, ?_, ?_, ?_, hm.ping⟩
    · rw [hE]; exact Nat.le_trans hm.le hle
    · intro l e
      rw [key] at e; cases e
      cases hl : keyLeaf s with
      | none =>
        have := hm.le
        rw [keyN hl] at this
        have := hm.zero (by omega)
        have := hg.pos
        omega
      | some l => have := hm.bound l hl; have := hg.endTm l hl; omega
    · intro l e hp
      rw [key] at e; cases e
      have hp := hown' hp
      cases hl : keyLeaf s with
      | none => have := h.key.le _ _ hp; rw [keyN hl] at this; omega
      | some l => have := hm.hold l hl hp; have := hg.endTm l hl; omega
    · intro hy l e hp hlt
      rw [key] at e; cases e
      have hp := hown' hp
      cases hl : keyLeaf s with
      | none => have := h.key.le _ _ hp; rw [keyN hl] at this; omega
      | some l =>
        show _ < c.clk i t
        have hkl := keyS l hl
        rcases Nat.lt_or_ge (s.mem i).vers.epoch l.epoch with e | e
        · have h1 := hm.past hy l hl hp e
          have h2 := hs.mono i _ _ ht
          omega
        · have h1 := hm.hold l hl hp
          have h3 := hm.le
          rcases hg.more with h4 | h4
          · omega
          · have := hg.past hy h4 l hl i
            omega
    · exact fun e => List.mem_append_left _ (hm.czar e)
    · exact fun e => hm.own (hown' e)
    · intro k' hb
      obtain ⟨q', h1, h2, h3, h4, h5, h6⟩ := hm.cas k' hb
      refine ⟨q', h1, h2, h3, h4, ?_, h6⟩
      intro b cur hb' herr
      rcases List.mem_append.1 hb' with e | e
      · exact h5 b cur e herr
      · simp at e
        obtain ⟨e1, e2, e3⟩ := e
        subst e1; subst e2
        rw [hk] at h1; cases h1
        rw [ha3]
        subst h2
        exact hg.req h3.symm
    · intro k' hb
      obtain ⟨q', h1, h2, h3, h4⟩ := hm.renew k' hb
      exact ⟨q', h1, h2, h3, List.mem_append_left _ h4⟩
  · intro q' hq'
    rw [hE]
    have := h.reqs q' hq'
    exact ⟨Nat.le_trans this.1 hle, this.2⟩
  · intro k' b cur hb
    rcases List.mem_append.1 hb with e | e
    · obtain ⟨q', h1, l, h2, h3, h4, h5⟩ := h.ans k' b cur e
      have hkl := keyS l h2
      have hge := hg.endTm l h2
      refine ⟨q', h1, l', key, by omega, h4, ?_⟩
      rcases h5 with ⟨h5, h6, h7, h8, h9⟩ | ⟨er, h5, h6, h7, p, h8, h9⟩
      · refine Or.inl ⟨h5, List.mem_append_left _ h6, h7, by omega, ?_⟩
        intro hy hlt
        show _ < c.clk q'.src t
        rcases Nat.lt_or_ge b.epoch l.epoch with e | e
        · have := h9 hy e
          have := hs.mono q'.src _ _ ht
          omega
        · rcases hg.more with h4 | h4
          · omega
          · have := hg.past hy h4 l h2 q'.src
            omega
      · exact Or.inr ⟨er, h5, h6, by omega, p, List.mem_append_left _ h8, h9⟩
    · simp at e
      obtain ⟨e1, e2, e3⟩ := e
      subst e1; subst e2; subst e3
      refine ⟨q, hk, l', key, Nat.le_of_eq ha2, by rw [ha3]; exact hg.pos, Or.inl ⟨ha1, by simp, ?_, Int.le_of_eq ha3, ?_⟩⟩
      · rw [ha2]; exact hg.old
      · intro _ hlt; omega
  · intro v hv
    obtain ⟨p, h1, h2⟩ := h.view v hv
    exact ⟨p, List.mem_append_left _ h1, h2⟩
  · intro k' v hv
    obtain ⟨j, i, d, h1, h2, h3, h4, h5⟩ := h.rep k' v hv
    refine ⟨j, i, d, h1, h2, List.mem_append_left _ h3, h4, ?_⟩
    intro l e
    rw [key] at e; cases e
    cases hl : keyLeaf s with
    | none => have := h.key.le _ _ h3; rw [keyN hl] at this; omega
    | some l => have := h5 l hl; have := hg.endTm l hl; omega

theorem Inv.apply {c s s' t t2 k n r} (hs : Sane c) (h : Inv c s) (hn : s.now ≤ t) (ht : t ≤ t2)
    (he : event c s t t2 (.apply k n r) = some s') : Inv c { s' with now := t2 } := by
  unfold event at he
  simp only at he
  split at he
  · cases he
  rename_i q hk
  split at he
  rotate_left
  · cases he
  rename_i hc
  cases hd : doCAS c.drift s.kv (ticketOf c q (c.lclk n r) (s.idx + 1)) with
  | none => rw [hd] at he; cases he
  | some R =>
    rw [hd] at he
    cases he
    have hqm := List.mem_of_getElem? hk
    have ho : Out c s.kv q (c.lclk n r) R (keyLeaf s) := cas_out hs.dur hd
    have good : ∀ l', Wrote c q (c.lclk n r) R l' →
        Inv c { s with kv := R.1, cur := if R.2.swapped then q.list else s.cur, idx := s.idx + 1,
                       ans := s.ans ++ [(k, R.2, s.cur)],
                       owner := if R.2.swapped then s.owner ++ [(R.2.epoch, q.src)] else s.owner, now := t2 } := by
      intro l' hw
      have hg := h.grow hs (show r ≤ t2 by omega) hqm ho hw
      have := h.written hs (t := t2) (by omega) hk hw.leaf hw.leasor hw.peer hg hw.err hw.epoch
        (hw.aEnd.trans hw.endTm.symm) (idx := s.idx + 1)
      rw [if_pos hw.swapped, if_pos hw.swapped]
      exact this
    have ho' := ho
    cases hl : keyLeaf s with
    | none =>
      rw [hl] at ho'
      cases ho' with
      | missing h1 _ _ _ =>
        have := (h.reqs q hqm).1
        unfold keyEpoch at this
        rw [hl] at this
        simp at this
        omega
      | fresh _ _ h3 => exact good _ h3
    | some l =>
      rw [hl] at ho'
      cases ho' with
      | extend _ _ _ _ h5 => exact good _ h5
      | take _ _ _ h5 => exact good _ h5
      | @refused _ e h1 h2 h3 h4 h5 h6 =>
        have hns : ¬R.2.swapped = true := by rw [h4]; simp
        dsimp only
        rw [if_neg hns, if_neg hns]
        obtain ⟨k1, k2, k3, p, k4, k5, k6, k7⟩ := h.key.leaf l hl
        have hdr := hs.drift
        have hmono := fun i => hs.mono i s.now t2 (by omega)
        have key : keyLeaf { s with kv := R.1, cur := s.cur, idx := s.idx + 1, ans := s.ans ++ [(k, R.2, s.cur)],
                                    owner := s.owner, now := t2 } = keyLeaf s := by
          unfold keyLeaf; rw [h1]
        have hE : keyEpoch { s with kv := R.1, cur := s.cur, idx := s.idx + 1, ans := s.ans ++ [(k, R.2, s.cur)],
                                    owner := s.owner, now := t2 } = keyEpoch s := by
          unfold keyEpoch; rw [key]
        refine ⟨⟨?_, ?_, ?_⟩, ?_, ?_, ?_, h.pings, h.view, ?_⟩
        · rw [key]; exact h.key.leaf
        · rw [hE]; exact h.key.le
        · exact h.key.one
        · intro i
          have hm := h.mem i
          refine ⟨by rw [hE]; exact hm.le, hm.zero, by rw [key]; exact hm.bound, by rw [key]; exact hm.hold, ?_,
            hm.czar, hm.own, ?_, hm.renew, hm.ping⟩
          · rw [key]
            intro hy l hl ho hlt
            exact Int.lt_of_lt_of_le (hm.past hy l hl ho hlt) (hmono i)
          · intro k' hb
            obtain ⟨q', g1, g2, g3, g4, g5, g6⟩ := hm.cas k' hb
            refine ⟨q', g1, g2, g3, g4, ?_, g6⟩
            intro b cur hb' herr
            rcases List.mem_append.1 hb' with e | e
            · exact g5 b cur e herr
            · simp at e
              obtain ⟨e1, e2, e3⟩ := e
              subst e2
              rw [h2] at herr; cases herr
        · rw [hE]; exact h.reqs
        · intro k' b cur hb
          rcases List.mem_append.1 hb with e | e
          · obtain ⟨q', g1, l', g2, g3, g4, g5⟩ := h.ans k' b cur e
            refine ⟨q', g1, l', by rw [key]; exact g2, g3, g4, ?_⟩
            rcases g5 with ⟨g5, g6, g7, g8, g9⟩ | g5
            · exact Or.inl ⟨g5, g6, g7, g8, fun hy hlt => Int.lt_of_lt_of_le (g9 hy hlt) (hmono _)⟩
            · exact Or.inr g5
          · simp at e
            obtain ⟨e1, e2, e3⟩ := e
            subst e1; subst e2; subst e3
            exact ⟨q, hk, l, by rw [key]; exact hl, Nat.le_of_eq h5, by omega,
              Or.inr ⟨e, h2, h3, by omega, p, by rw [h5]; exact k4, k7⟩⟩
        · intro k' v hv
          obtain ⟨j, i, d, g1, g2, g3, g4, g5⟩ := h.rep k' v hv
          exact ⟨j, i, d, g1, g2, g3, g4, by rw [key]; exact g5⟩

theorem Inv.step {c s s' x} (hs : Sane c) (h : Inv c s) (he : Czar.step c s x = some s') : Inv c s' := by
  obtain ⟨t, t2, act⟩ := x
  unfold Czar.step at he
  simp only at he
  split at he
  rotate_left
  · cases he
  rename_i hc
  cases hev : event c s t t2 act with
  | none => rw [hev] at he; cases he
  | some s1 =>
    rw [hev] at he
    cases he
    have ht : s.now ≤ t2 := by omega
    cases act with
    | bid i => exact h.bid hs ht hev
    | renew i => exact h.renew hs ht hev
    | apply k n r => exact h.apply hs hc.1 hc.2 hev
    | giveUp i => exact h.giveUp hs ht hev
    | answer i => exact h.answer hs ht hev
    | ping i a => exact h.ping hs ht hev
    | pingFail i => exact h.pingFail hs ht hev
    | serve j k => exact h.serve hs ht hev
    | reply i => exact h.reply hs ht hev
    | expire j => exact h.expire hs ht hev
    | lapse j => exact h.lapse hs ht hev

theorem Inv.run {c} (hs : Sane c) : ∀ {xs s s'}, Inv c s → Czar.run c s xs = some s' → Inv c s'
  | [], s, s', h, he => by cases he; exact h
  | x :: xs, s, s', h, he => by
    unfold Czar.run at he
    cases hst : Czar.step c s x with
    | none => rw [hst] at he; cases he
    | some s1 => rw [hst] at he; exact Inv.run hs (h.step hs hst) he

theorem Inv.reach {c s} (hs : Sane c) (h : Reach c s) : Inv c s := by
  obtain ⟨xs, h⟩ := h
  exact Inv.run hs (Inv.init c) h

end Verif.Czar

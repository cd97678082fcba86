import Verif.Proofs.CzarMono
/-
Who can take the czar key (C94): the write that wins, and the members that never can.
-/
namespace Verif.Czar
open Verif.KV (Key Store Leaf Ticket lookup put erase leafOf doCAS)

theorem casWrite_widx {drift : Int} {kv : Store} {t : Ticket} {r} (h : KV.casWrite drift kv t = some r) :
    ∀ l', leafOf r.1 t.table t.key = some l' → l'.writeIdx = t.idx ∨ leafOf kv t.table t.key = some l' := by
  unfold KV.casWrite KV.kvstoreWrite at h
  split at h
  · cases h
  cases hl : leafOf kv t.table t.key with
  | none =>
    rw [hl] at h
    cases h
    intro l' e
    simp only at e
    rw [KV.leafOf_setKey] at e
    simp at e
    left; rw [← e]; rfl
  | some l =>
    rw [hl] at h
    simp only at h
    cases hw : KV.writeLeaf drift l t with
    | inr e =>
      rw [hw] at h
      cases h
      intro l' e
      right; simpa [hl] using e
    | inl l2 =>
      rw [hw] at h
      cases h
      intro l' e
      simp only at e
      rw [KV.leafOf_setKey] at e
      simp at e
      left
      subst e
      unfold KV.writeLeaf at hw
      split at hw
      · cases hw
      split at hw
      · cases hw; rfl
      split at hw
      · cases hw
      split at hw
      · cases hw; rfl
      split at hw
      · cases hw; rfl
      · cases hw

theorem cas_widx {drift : Int} {kv : Store} {t : Ticket} {r} (h : doCAS drift kv t = some r) :
    ∀ l', leafOf r.1 t.table t.key = some l' → l'.writeIdx = t.idx ∨ leafOf kv t.table t.key = some l' := by
  unfold doCAS at h
  cases hl : leafOf kv t.table t.key with
  | none =>
    rw [hl] at h
    simp only at h
    split at h
    · cases h; intro l' e; right; rw [← hl]; exact e
    · rw [← hl]; exact casWrite_widx h
  | some l =>
    rw [hl] at h
    simp only at h
    rw [← hl]
    split at h
    · cases h; intro l' e; exact Or.inr e
    repeat' split at h
    all_goals first
      | exact casWrite_widx h
      | (cases h; intro l' e; exact Or.inr e)

theorem event_widx {c s s' t t2 act} (he : event c s t t2 act = some s')
    (h : ∀ l, keyLeaf s = some l → l.writeIdx ≤ s.idx) : ∀ l, keyLeaf s' = some l → l.writeIdx ≤ s'.idx := by
  have key : s'.kv = s.kv → s'.idx = s.idx → ∀ l, keyLeaf s' = some l → l.writeIdx ≤ s'.idx := by
    intro h1 h2
    unfold keyLeaf at *
    rw [h1, h2]
    exact h
  cases act with
  | apply k n r =>
    unfold event at he
    simp only at he
    split at he
    · cases he
    split at he
    · rw [Option.map_eq_some_iff] at he
      obtain ⟨R, hR, e⟩ := he
      cases e
      intro l hl
      rcases cas_widx hR l hl with e | e
      · rw [e]; exact Nat.le_refl _
      · exact Nat.le_succ_of_le (h l e)
    · cases he
  | answer i =>
    unfold event onAnswer at he
    simp only at he
    repeat' split at he
    all_goals first
      | (cases he; done)
      | (cases he; exact key rfl rfl)
  | _ =>
    unfold event at he
    simp only at he
    repeat' split at he
    all_goals first
      | (cases he; done)
      | (cases he; exact key rfl rfl)

theorem reach_widx {c s} (hs : Sane c) (h : Reach c s) : ∀ l, keyLeaf s = some l → l.writeIdx ≤ s.idx := by
  refine reach_ind hs (P := fun s => ∀ l, keyLeaf s = some l → l.writeIdx ≤ s.idx) (fun l h => nomatch h) ?_ h
  intro s s' x _ _ he ih
  obtain ⟨-, -, s1, h1, rfl⟩ := step_inv he
  have := event_widx h1 ih
  exact this

/-- A write with the key's epoch, or none, stamped when the lease is over, takes effect. -/
theorem cas_wins {c : Cfg} {kv : Store} {q : Req} {tm : Int} {idx : Nat} {l : Leaf} (hd : 0 < c.czDur)
    (hdr : 0 ≤ c.drift) (htm : 0 < tm)
    (hl : leafOf kv tableName keyName = some l) (hi : l.writeIdx < idx)
    (he : q.epoch = 0 ∨ q.epoch = l.epoch) (ht : l.endTm + c.drift < tm) :
    ∃ R, doCAS c.drift kv (ticketOf c q tm idx) = some R ∧ R.2.err = none := by
  have ht' : (ticketOf c q tm idx).table = tableName := rfl
  have hk : (ticketOf c q tm idx).key = keyName := rfl
  have hv : ¬ (KV.validLease c.drift (ticketOf c q tm idx) l = true ∧ l.leasor ≠ (ticketOf c q tm idx).leasor) := by
    intro e
    have := e.1
    unfold KV.validLease at this
    simp at this
    have h3 : (ticketOf c q tm idx).tm = tm := rfl
    rw [h3] at this
    omega
  have hE : (ticketOf c q tm idx).endTm = tm + c.czDur := by simp [ticketOf, KV.prepOne, hd]
  have hw : ∃ l', KV.writeLeaf c.drift l (ticketOf c q tm idx) = .inl l' := by
    unfold KV.writeLeaf
    have h1 : ¬ (ticketOf c q tm idx).idx ≤ l.writeIdx := by show ¬ idx ≤ l.writeIdx; omega
    rw [if_neg h1]
    split
    · exact ⟨_, rfl⟩
    have h2 : ¬ ((ticketOf c q tm idx).reqDur ≠ 0 ∧ (ticketOf c q tm idx).endTm ≤ l.endTm) := by
      rw [hE]; omega
    rw [if_neg h2]
    split
    · exact ⟨_, rfl⟩
    have h3 : l.endTm + c.drift < (ticketOf c q tm idx).tm := ht
    rw [if_pos h3]
    exact ⟨_, rfl⟩
  obtain ⟨l', hw⟩ := hw
  have hcw : ∃ R, KV.casWrite c.drift kv (ticketOf c q tm idx) = some R ∧ R.2.err = none := by
    unfold KV.casWrite KV.kvstoreWrite
    have h0 : ¬ (ticketOf c q tm idx).tm = 0 := by show ¬ tm = 0; omega
    rw [if_neg h0, ht', hk, hl]
    simp only
    rw [hw]
    refine ⟨_, rfl, ?_⟩
    simp only
    split <;> rfl
  obtain ⟨R, h1, h2⟩ := hcw
  refine ⟨R, ?_, h2⟩
  unfold doCAS
  rw [ht', hk, hl]
  simp only
  rw [if_neg hv, if_neg (show ¬ 0 < (ticketOf c q tm idx).oldVersion by show ¬ (0 : Int) < 0; omega)]
  split
  · have h3 : ¬ (ticketOf c q tm idx).oldEpoch ≠ (l.epoch : Int) := by
      rename_i h4
      have : (ticketOf c q tm idx).oldEpoch = (q.epoch : Int) := rfl
      rw [this] at h4 ⊢
      omega
    rw [if_neg h3]; exact h1
  · rw [if_neg (show ¬ (ticketOf c q tm idx).oldVal ≠ [] by show ¬ (([] : Key) ≠ []); simp)]
    exact h1

/-! ### Taking over -/

theorem Inv.fresh {c s} (h : Inv c s) : answerTo s s.reqs.length = none := by
  unfold answerTo
  rw [Option.map_eq_none_iff, List.find?_eq_none]
  intro x hx e
  simp at e
  obtain ⟨k, a, cur⟩ := x
  simp only at e
  subst e
  obtain ⟨q, hq, -⟩ := h.ans _ _ _ hx
  have := (List.getElem?_eq_some_iff.1 hq).1
  omega

theorem onAnswer_cas {c : Cfg} {s : Sys} {i t t2 k : Nat} {a cur q} (h1 : (s.mem i).busy = some (.cas k))
    (h2 : answerTo s k = some (a, cur)) (h3 : s.reqs[k]? = some q) :
    onAnswer c s i t t2 = some
      { s.put i (settle (onBid c (c.det i) { s.mem i with busy := none } a q.list cur (c.clk i t) (c.clk i t2)).1 (c.clk i t2))
          (onBid c (c.det i) { s.mem i with busy := none } a q.list cur (c.clk i t) (c.clk i t2)).2.1 with
        quiet := s.quiet ++ (onBid c (c.det i) { s.mem i with busy := none } a q.list cur (c.clk i t) (c.clk i t2)).2.2.map
          fun v => (i, v) } := by
  unfold onAnswer
  simp only [h1, h2, h3]

theorem take_over {c s i l n r t0 t1 t2 t3} (hs : Sane c) (h : Reach c s) (hl : keyLeaf s = some l)
    (hst : (s.mem i).state = .unknown) (hb : (s.mem i).busy = none) (hd : (s.mem i).dead = false)
    (he : (s.mem i).vers.epoch = 0 ∨ (s.mem i).vers.epoch = l.epoch)
    (h0 : s.now ≤ t0) (h1 : t0 ≤ r) (h2 : r ≤ t1) (h3 : t1 ≤ t2) (h4 : t2 ≤ t3)
    (hover : l.endTm + c.drift < c.lclk n r) (hleft : c.minLeft ≤ c.lclk n r + c.czDur - c.clk i t2)
    (hin : c.clk i t3 ≤ c.lclk n r + c.czDur) :
    ∃ s', Czar.run c s [(t0, t0, .bid i), (t1, t1, .apply s.reqs.length n r), (t2, t3, .answer i)] = some s' ∧
      (s'.mem i).state = .amCzar ∧ (s'.mem i).vers.epoch = keyEpoch s' ∧
      ∃ l', keyLeaf s' = some l' ∧ l'.leasor = (c.det i).name ∧ (s'.mem i).vers.until_ = l'.endTm := by
  have hI := Inv.reach hs h
  have hw := reach_widx hs h l hl
  -- the bid
  let q : Req := ⟨i, bidList (c.det i) (s.mem i), (s.mem i).vers.epoch, t0⟩
  let s1 : Sys := { s.put i { s.mem i with busy := some (.cas s.reqs.length) } [] with reqs := s.reqs ++ [q], now := t0 }
  have e1 : Czar.step c s (t0, t0, .bid i) = some s1 := by
    unfold Czar.step event
    simp only
    rw [if_pos ⟨h0, Nat.le_refl _⟩, if_pos ⟨hst, hb, hd⟩]
    rfl
  -- its write
  obtain ⟨R, hR, herr⟩ := cas_wins (q := q) (idx := s.idx + 1) hs.dur hs.drift (hs.stamps n r) hl (by omega) he hover
  have ho : Out c s.kv q (c.lclk n r) R (some l) := hl ▸ cas_out hs.dur hR
  obtain ⟨l', hwr, hep⟩ : ∃ l', Wrote c q (c.lclk n r) R l' ∧ l.epoch ≤ l'.epoch := by
    cases ho with
    | refused _ e => rw [herr] at e; cases e
    | extend _ _ _ e h => exact ⟨_, h, by omega⟩
    | take _ _ e h => exact ⟨_, h, by omega⟩
  let s2 : Sys := { s1 with kv := R.1, cur := q.list, idx := s.idx + 1, ans := s.ans ++ [(s.reqs.length, R.2, s.cur)],
                            owner := s.owner ++ [(R.2.epoch, i)], now := t1 }
  have hq1 : s1.reqs[s.reqs.length]? = some q := by show (s.reqs ++ [q])[s.reqs.length]? = some q; simp
  have hfr : answerTo s s.reqs.length = none := hI.fresh
  have e2 : Czar.step c s1 (t1, t1, .apply s.reqs.length n r) = some s2 := by
    unfold Czar.step event
    simp only
    rw [if_pos ⟨show t0 ≤ t1 by omega, Nat.le_refl _⟩, hq1]
    simp only
    rw [if_pos ⟨show answerTo s1 s.reqs.length = none from hfr, show t0 ≤ r from h1, h2⟩]
    have : doCAS c.drift s1.kv (ticketOf c q (c.lclk n r) (s1.idx + 1)) = some R := hR
    rw [this]
    simp only [Option.map_some, hwr.swapped, if_true]
    rfl
  -- the answer
  have ha : answerTo s2 s.reqs.length = some (R.2, s.cur) := by
    unfold answerTo at hfr ⊢
    rw [Option.map_eq_none_iff] at hfr
    show ((s.ans ++ [(s.reqs.length, R.2, s.cur)]).find? _).map _ = _
    rw [List.find?_append, hfr]
    simp
  have hm2 : s2.mem i = { s.mem i with busy := some (.cas s.reqs.length) } := by
    show upd s.mem i _ i = _
    rw [upd_same]
  let m0 : Mem := { s.mem i with busy := none }
  have hle : verLe m0.vers (versOf m0 R.2 true) := by
    unfold verLe versOf
    simp only
    by_cases e : R.2.epoch = m0.vers.epoch
    · rw [if_pos e]; exact Or.inr ⟨e.symm, Nat.le_refl _⟩
    · left
      have := (hI.mem i).le
      have hE : keyEpoch s = l.epoch := by unfold keyEpoch; rw [hl]; rfl
      have : R.2.epoch = l'.epoch := hwr.epoch
      show (s.mem i).vers.epoch < R.2.epoch
      have : R.2.epoch ≠ (s.mem i).vers.epoch := e
      omega
  have hsv : ∃ us, setVers { m0 with state := .amCzar } (versOf m0 R.2 true) q.list true (c.clk i t3) =
      some ({ m0 with state := .amCzar, members := q.list.clone, vers := versOf m0 R.2 true,
                      hash := some (hashOf q.list (versOf m0 R.2 true)), t0 := c.clk i t3 }, us) := by
    unfold setVers
    have a1 : ¬ (versOf m0 R.2 true).until_ < c.clk i t3 := by
      show ¬ R.2.endTm < c.clk i t3
      rw [hwr.aEnd]; omega
    have a2 : ¬ versionCompare (versOf m0 R.2 true) m0.vers < 0 := fun e => versionCompare_lt.1 e hle
    rw [if_neg a1, if_neg a2]
    exact ⟨_, rfl⟩
  obtain ⟨us, hsv⟩ := hsv
  let m3 : Mem := { m0 with state := .amCzar, members := q.list.clone, vers := versOf m0 R.2 true,
                            hash := some (hashOf q.list (versOf m0 R.2 true)), t0 := c.clk i t3 }
  have hob : onBid c (c.det i) m0 R.2 q.list s.cur (c.clk i t2) (c.clk i t3) = (m3, us, []) := by
    unfold onBid
    rw [herr]
    simp only
    have : ¬ R.2.endTm - c.clk i t2 < c.minLeft := by rw [hwr.aEnd]; omega
    rw [if_neg this, hsv]
  let s3 : Sys := { s2.put i (settle m3 (c.clk i t3)) us with quiet := s2.quiet ++ [], now := t3 }
  have e3 : Czar.step c s2 (t2, t3, .answer i) = some s3 := by
    have hev : event c s2 t2 t3 (.answer i) = some { s2.put i (settle m3 (c.clk i t3)) us with quiet := s2.quiet ++ [] } := by
      have hd2 : ¬ (s2.mem i).dead = true := by rw [hm2]; show ¬ (s.mem i).dead = true; rw [hd]; simp
      have hq2 : s2.reqs[s.reqs.length]? = some q := hq1
      unfold event
      simp only
      rw [if_neg hd2, onAnswer_cas (by rw [hm2]) ha hq2, hm2]
      show some _ = _
      have : ({ s.mem i with busy := none } : Mem) = m0 := rfl
      simp only [this, hob]
      rfl
    unfold Czar.step
    rw [if_pos ⟨show t1 ≤ t2 from h3, h4⟩]
    simp only [hev]
    rfl
  refine ⟨s3, ?_, ?_⟩
  · unfold Czar.run Czar.run Czar.run Czar.run
    rw [e1]
    simp only [Option.bind_some]
    rw [e2]
    simp only [Option.bind_some]
    rw [e3]
    rfl
  · have hm3 : s3.mem i = settle m3 (c.clk i t3) := by show upd _ i _ i = _; rw [upd_same]
    have hset : settle m3 (c.clk i t3) = m3 := by
      rcases settle_eq m3 (c.clk i t3) with e | e
      · exact e
      · have a1 : m3.vers.until_ = R.2.endTm := rfl
        have := e.2.2
        rw [a1, hwr.aEnd] at this
        omega
    rw [hm3, hset]
    have hk : keyLeaf s3 = some l' := hwr.leaf
    refine ⟨rfl, ?_, l', hk, hwr.leasor, ?_⟩
    · unfold keyEpoch; rw [hk]; exact hwr.epoch
    · show R.2.endTm = l'.endTm
      rw [hwr.aEnd, hwr.endTm]

/-! ### Locked out -/

structure Stuck (c : Cfg) (alive : Nat → Prop) (l : Leaf) (s : Sys) : Prop where
  key : keyLeaf s = some l
  late : ∀ i, alive i → l.endTm + c.drift < c.clk i s.now
  mem : ∀ i, alive i → (s.mem i).state ≠ .amCzar ∧ (s.mem i).vers.epoch ≠ 0 ∧ (s.mem i).vers.epoch ≠ l.epoch ∧
    ∀ k, (s.mem i).busy ≠ some (.renew k)
  reqs : ∀ k q, s.reqs[k]? = some q → answerTo s k = none → q.epoch ≠ 0 ∧ q.epoch ≠ l.epoch

theorem onReply_late {c : Cfg} {d : Det} {m : Mem} {v : View} {now now2 : Int} (h : v.1.until_ < now2) :
    (onReply c d m v now now2).1.vers = m.vers ∧ (onReply c d m v now now2).1.busy = m.busy ∧
      ((onReply c d m v now now2).1.state = m.state ∨ (onReply c d m v now now2).1.state = .unknown) := by
  have hn : ∀ m : Mem, setVers m v.1 v.2 true now2 = none := by
    intro m; unfold setVers; rw [if_pos h]
  unfold onReply
  split
  · simp only [hn]; simp
  · split
    · exact ⟨rfl, rfl, Or.inl rfl⟩
    · split
      · exact ⟨rfl, rfl, Or.inr rfl⟩
      · simp only [hn]; simp

theorem onBid_late {c : Cfg} {d : Det} {m : Mem} {a : Ticket} {bid cur : RList} {now now2 : Int} (h : a.endTm < now2)
    (hm : m.vers.until_ < now2) (hst : m.state ≠ .amCzar) :
    (settle (onBid c d m a bid cur now now2).1 now2).vers = m.vers ∧
      (settle (onBid c d m a bid cur now now2).1 now2).busy = m.busy ∧
      (settle (onBid c d m a bid cur now now2).1 now2).state ≠ .amCzar := by
  have hn : ∀ (m' : Mem) b l u, setVers m' (versOf m a b) l u now2 = none := by
    intro m' b l u; unfold setVers; rw [if_pos (show (versOf m a b).until_ < now2 from h)]
  have hset : ∀ m' : Mem, m'.vers = m.vers → (settle m' now2).state ≠ .amCzar := by
    intro m' e h'
    have := (settle_state h').2
    rw [e] at this
    omega
  have key : (onBid c d m a bid cur now now2).1.vers = m.vers ∧ (onBid c d m a bid cur now now2).1.busy = m.busy := by
    unfold onBid
    simp only [hn]
    repeat' split
    all_goals exact ⟨rfl, rfl⟩
  exact ⟨by simp [key.1], by simp [key.2], hset _ key.1⟩

theorem Stuck.put {c alive l s s' i m'} (hs : Sane c) (h : Stuck c alive l s) (hkv : s'.kv = s.kv) (hans : s'.ans = s.ans)
    (hnow : s.now ≤ s'.now) (hmem : s'.mem = upd s.mem i m')
    (hm : m'.state ≠ .amCzar ∧ m'.vers.epoch = (s.mem i).vers.epoch ∧ ∀ k, m'.busy ≠ some (.renew k))
    (hr : ∀ (k : Nat) q, s'.reqs[k]? = some q → s.reqs[k]? = some q ∨ (alive i ∧ q.epoch = (s.mem i).vers.epoch)) :
    Stuck c alive l s' := by
  refine ⟨by unfold keyLeaf; rw [hkv]; exact h.key, fun j hj => Int.lt_of_lt_of_le (h.late j hj) (hs.mono _ _ _ hnow), ?_, ?_⟩
  · intro j hj
    rw [hmem]
    unfold upd
    split
    · rename_i e
      subst e
      have := h.mem j hj
      exact ⟨hm.1, by rw [hm.2.1]; exact this.2.1, by rw [hm.2.1]; exact this.2.2.1, hm.2.2⟩
    · exact h.mem j hj
  · intro k q hk ha
    rcases hr k q hk with e | ⟨e1, e2⟩
    · have ha' : answerTo s k = none := by unfold answerTo at *; rw [hans] at ha; exact ha
      exact h.reqs k q e ha'
    · rw [e2]
      have := h.mem i e1
      exact ⟨this.2.1, this.2.2.1⟩

theorem Stuck.step {c alive l s s' x} (hs : Sane c) (hI : Inv c s) (h : Stuck c alive l s)
    (hx : ∀ i, actor x.2.2 = some i → alive i) (he : Czar.step c s x = some s') : Stuck c alive l s' := by
  obtain ⟨ht, ht2, s1, h1, rfl⟩ := step_inv he
  obtain ⟨t, t2, act⟩ := x
  simp only at h1 hx ht ht2 ⊢
  have hnow : s.now ≤ t2 := by omega
  cases act with
  | bid i =>
    have hi := h.mem i (hx i rfl)
    unfold event at h1
    simp only at h1
    split at h1
    · cases h1
      refine h.put hs rfl rfl hnow rfl ⟨hi.1, rfl, by simp⟩ ?_
      intro k q hk
      simp only [Sys.put] at hk
      rcases Nat.lt_or_ge k s.reqs.length with e | e
      · rw [List.getElem?_append_left e] at hk; exact Or.inl hk
      · rw [List.getElem?_append_right e] at hk
        right
        refine ⟨hx i rfl, ?_⟩
        have := List.mem_of_getElem? hk
        simp at this
        rw [this]
    · cases h1
  | renew i =>
    have hi := h.mem i (hx i rfl)
    unfold event at h1
    simp only at h1
    split at h1
    · rename_i e; exact absurd e.1 hi.1
    · cases h1
  | apply k n r =>
    unfold event at h1
    simp only at h1
    split at h1
    · cases h1
    rename_i q hk
    split at h1
    · rename_i hc
      rw [Option.map_eq_some_iff] at h1
      obtain ⟨R, hR, e⟩ := h1
      cases e
      have hq := h.reqs k q hk hc.1
      have ho : Out c s.kv q (c.lclk n r) R (some l) := h.key ▸ cas_out hs.dur hR
      have hkv : R.1 = s.kv := by
        cases ho with
        | refused e => exact e
        | extend e => omega
        | take e => omega
      refine ⟨by unfold keyLeaf; simp only; rw [hkv]; exact h.key,
        fun j hj => Int.lt_of_lt_of_le (h.late j hj) (hs.mono _ _ _ hnow), h.mem, ?_⟩
      intro k' q' hk' ha
      refine h.reqs k' q' hk' ?_
      unfold answerTo at *
      simp only at ha
      rw [Option.map_eq_none_iff] at *
      rw [List.find?_append] at ha
      cases hf : List.find? (fun x => decide (x.1 = k')) s.ans with
      | none => rfl
      | some y => rw [hf] at ha; simp at ha
    · cases h1
  | giveUp i =>
    have hi := h.mem i (hx i rfl)
    unfold event at h1
    simp only at h1
    split at h1
    · split at h1
      · cases h1
      · cases h1
        exact h.put hs rfl rfl hnow rfl ⟨hi.1, rfl, by simp⟩ (fun k q hk => Or.inl hk)
    · split at h1
      · cases h1
      · cases h1
        exact h.put hs rfl rfl hnow rfl ⟨by simp, rfl, by simp⟩ (fun k q hk => Or.inl hk)
    · cases h1
  | answer i =>
    have ha := hx i rfl
    have hi := h.mem i ha
    unfold event onAnswer at h1
    simp only at h1
    split at h1
    · cases h1
    split at h1
    · rename_i k hb
      split at h1
      rotate_left
      · cases h1
      rename_i a cur q hans hq
      cases h1
      obtain ⟨q', hq', l', hl', -, -, hok⟩ := hI.ans k a cur (find_mem hans)
      rw [h.key] at hl'; cases hl'
      have hlate := h.late i ha
      have hmono := hs.mono i _ _ hnow
      have hend : a.endTm < c.clk i t2 := by
        have := hs.drift
        rcases hok with ⟨-, -, -, e, -⟩ | ⟨-, -, -, e, -⟩ <;> omega
      have hu : (s.mem i).vers.until_ < c.clk i t2 := by
        have := (hI.mem i).bound l h.key
        omega
      obtain ⟨b1, b2, b3⟩ := onBid_late (c := c) (d := c.det i) (m := { s.mem i with busy := none }) (a := a) (bid := q.list)
        (cur := cur) (now := c.clk i t) hend hu hi.1
      refine h.put hs rfl rfl hnow rfl ⟨b3, by rw [b1], ?_⟩ (fun k q hk => Or.inl hk)
      rw [b2]; simp
    · rename_i k hb
      exact absurd hb (hi.2.2.2 k)
    · cases h1
  | ping i addr =>
    have hi := h.mem i (hx i rfl)
    unfold event at h1
    simp only at h1
    split at h1
    · rename_i hc
      split at h1
      · cases h1
        exact h.put hs rfl rfl hnow rfl ⟨by simp, rfl, hi.2.2.2⟩ (fun k q hk => Or.inl hk)
      split at h1
      · cases h1
        exact h.put hs rfl rfl hnow rfl ⟨hi.1, rfl, hi.2.2.2⟩ (fun k q hk => Or.inl hk)
      · cases h1
        exact h.put hs rfl rfl hnow rfl ⟨hi.1, rfl, by simp⟩ (fun k q hk => Or.inl hk)
    · cases h1
  | pingFail i =>
    have hi := h.mem i (hx i rfl)
    unfold event at h1
    simp only at h1
    split at h1
    · cases h1
      exact h.put hs rfl rfl hnow rfl ⟨by simp, rfl, by simp⟩ (fun k q hk => Or.inl hk)
    · cases h1
  | serve j k =>
    have hi := h.mem j (hx j rfl)
    unfold event at h1
    simp only at h1
    split at h1
    · cases h1
    split at h1
    · rename_i i d hp hc
      have : handlePing c (c.det j).name (s.mem j) d (c.clk j t) (c.clk j t2) = some (s.mem j, [], none) := by
        unfold handlePing; rw [if_pos hi.1]
      rw [this] at h1
      cases h1
      exact h.put hs rfl rfl hnow rfl ⟨fun e => hi.1 (settle_state e).1, by simp, by simpa using hi.2.2.2⟩ (fun k q hk => Or.inl hk)
    · cases h1
  | reply i =>
    have ha := hx i rfl
    have hi := h.mem i ha
    unfold event at h1
    simp only at h1
    split at h1
    rotate_left
    · cases h1
    rename_i k hb
    split at h1
    · cases h1
    rename_i v hv
    split at h1
    · cases h1
    cases h1
    obtain ⟨j, i', d', -, -, -, -, hbd⟩ := hI.rep k v (find_mem hv)
    have hlate := h.late i ha
    have hmono := hs.mono i _ _ hnow
    have := hbd l h.key
    obtain ⟨b1, b2, b3⟩ := onReply_late (c := c) (d := c.det i) (m := { s.mem i with busy := none }) (v := v)
      (now := c.clk i t) (now2 := c.clk i t2) (by omega)
    refine h.put hs rfl rfl hnow rfl ⟨?_, by rw [b1], ?_⟩ (fun k q hk => Or.inl hk)
    · rcases b3 with e | e
      · rw [e]; exact hi.1
      · rw [e]; simp
    · rw [b2]; simp
  | expire j =>
    have hi := h.mem j (hx j rfl)
    unfold event at h1
    simp only at h1
    split at h1
    · rename_i e; exact absurd e.1 hi.1
    · cases h1
  | lapse j =>
    have hi := h.mem j (hx j rfl)
    unfold event at h1
    simp only at h1
    split at h1
    · rename_i e; exact absurd e.1 hi.1
    · cases h1

theorem Stuck.run {c alive l} (hs : Sane c) : ∀ {xs s s'}, Inv c s → Stuck c alive l s →
    (∀ x ∈ xs, ∀ i, actor x.2.2 = some i → alive i) → Czar.run c s xs = some s' → Stuck c alive l s'
  | [], s, s', _, h, _, he => by cases he; exact h
  | x :: xs, s, s', hi, h, hx, he => by
    unfold Czar.run at he
    cases hst : Czar.step c s x with
    | none => rw [hst] at he; cases he
    | some s1 =>
      rw [hst] at he
      exact Stuck.run hs (hi.step hs hst) (h.step hs hi (hx x (List.mem_cons_self ..)) hst)
        (fun y hy => hx y (List.mem_cons_of_mem _ hy)) he

end Verif.Czar

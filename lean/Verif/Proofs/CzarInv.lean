import Verif.Proofs.Czar
/-
The invariant behind C90 and C91.
-/
namespace Verif.Czar
open Verif.KV (Key Store Leaf Ticket lookup put erase leafOf doCAS)

/-- The list `l` names `p` as czar, and does not have it among the others. -/
def IsCzar (c : Cfg) (p : Nat) (l : RList) : Prop :=
  l.czarName = (c.det p).name ∧ l.czarDet.map (·.det) = some (c.det p) ∧ lookup l.peers (c.det p).name = none

theorem IsCzar.congr {c p} {a b : RList} (h : IsCzar c p a) (hv : sameView b a) : IsCzar c p b := by
  refine ⟨hv.1.trans h.1, hv.2.1.trans h.2.1, ?_⟩
  have := hv.2.2 (c.det p).name
  rw [h.2.2] at this
  simpa using this

theorem IsCzar.unique {c p q} (hs : Sane c) {l : RList} (h : IsCzar c p l) (h' : IsCzar c q l) : p = q :=
  hs.distinct _ _ (h.1.symm.trans h'.1)

structure MInv (c : Cfg) (s : Sys) (i : Nat) (m : Mem) : Prop where
  le : m.vers.epoch ≤ keyEpoch s
  zero : m.vers.epoch = 0 → m.vers.until_ = 0
  bound : ∀ l, keyLeaf s = some l → m.vers.until_ ≤ l.endTm + c.drift
  hold : ∀ l, keyLeaf s = some l → (m.vers.epoch, i) ∈ s.owner → m.vers.until_ ≤ l.endTm
  past : Synced c → ∀ l, keyLeaf s = some l → (m.vers.epoch, i) ∈ s.owner → m.vers.epoch < l.epoch →
    m.vers.until_ < c.clk i s.now
  czar : m.state = .amCzar → (m.vers.epoch, i) ∈ s.owner
  own : (m.vers.epoch, i) ∈ s.owner → IsCzar c i m.members
  cas : ∀ k, m.busy = some (.cas k) → ∃ q, s.reqs[k]? = some q ∧ q.src = i ∧ q.epoch = m.vers.epoch ∧
    q.list = bidList (c.det i) m ∧ (∀ a cur, (k, a, cur) ∈ s.ans → a.err = none → m.vers.until_ ≤ a.endTm) ∧
    m.state = .unknown
  renew : ∀ k, m.busy = some (.renew k) → ∃ q, s.reqs[k]? = some q ∧ q.src = i ∧ q.epoch = m.vers.epoch ∧
    (m.vers.epoch, i) ∈ s.owner
  ping : ∀ k, m.busy = some (.ping k) → ∃ d, s.pings[k]? = some (i, d) ∧ m.state = .notCzar

/-- The view is older than what its czar now has, or equals it. -/
def Known (s : Sys) (v : View) : Prop :=
  ∃ p, (v.1.epoch, p) ∈ s.owner ∧ (v.1.epoch < (s.mem p).vers.epoch ∨ (v.1.epoch = (s.mem p).vers.epoch ∧
    (v.1.within < (s.mem p).vers.within ∨
      (v.1.within = (s.mem p).vers.within ∧ sameView v.2 (s.mem p).members))))

def RepOk (c : Cfg) (s : Sys) (k : Nat) (v : View) : Prop :=
  ∃ j i d, s.pings[k]? = some (i, d) ∧ i ≠ j ∧ (v.1.epoch, j) ∈ s.owner ∧ v ∈ seen s ∧
    ∀ l, keyLeaf s = some l → v.1.until_ ≤ l.endTm + c.drift

structure KeyInv (c : Cfg) (s : Sys) : Prop where
  leaf : ∀ l, keyLeaf s = some l → l.leasor ≠ [] ∧ 0 < l.endTm ∧ 1 ≤ l.epoch ∧
    ∃ p, (l.epoch, p) ∈ s.owner ∧ l.leasor = (c.det p).name ∧ l.leasorPeer = (c.det p).peerID ∧ IsCzar c p s.cur
  le : ∀ e p, (e, p) ∈ s.owner → 1 ≤ e ∧ e ≤ keyEpoch s
  one : ∀ e p q, (e, p) ∈ s.owner → (e, q) ∈ s.owner → p = q

def AnsOk (c : Cfg) (s : Sys) (q : Req) (a : Ticket) (cur : RList) : Prop :=
  ∃ l, keyLeaf s = some l ∧ a.epoch ≤ l.epoch ∧ 0 < a.endTm ∧
    ((a.err = none ∧ (a.epoch, q.src) ∈ s.owner ∧ (q.epoch = 0 ∨ a.epoch = q.epoch ∨ a.epoch = q.epoch + 1) ∧
        a.endTm ≤ l.endTm ∧ (Synced c → a.epoch < l.epoch → a.endTm < c.clk q.src s.now)) ∨
     (∃ e, a.err = some e ∧ e ≠ .keyNotFound ∧ a.endTm ≤ l.endTm + c.drift ∧
        ∃ p, (a.epoch, p) ∈ s.owner ∧ IsCzar c p cur))

structure Inv (c : Cfg) (s : Sys) : Prop where
  key : KeyInv c s
  mem : ∀ i, MInv c s i (s.mem i)
  reqs : ∀ q ∈ s.reqs, q.epoch ≤ keyEpoch s ∧ IsCzar c q.src q.list
  ans : ∀ k a cur, (k, a, cur) ∈ s.ans → ∃ q, s.reqs[k]? = some q ∧ AnsOk c s q a cur
  pings : ∀ x ∈ s.pings, x.2.name = (c.det x.1).name
  view : ∀ v ∈ seen s, Known s v
  rep : ∀ k v, (k, v) ∈ s.replies → RepOk c s k v

theorem Inv.init (c : Cfg) : Inv c {} where
  key := ⟨(fun l h => nomatch h), (fun e p h => nomatch h), (fun e p q h => nomatch h)⟩
  mem := fun i => ⟨Nat.le_refl _, fun _ => rfl, (fun l h => nomatch h), (fun l h => nomatch h),
    (fun _ l h => nomatch h), (fun h => nomatch h), (fun h => nomatch h), (fun _ h => nomatch h),
    (fun _ h => nomatch h), (fun _ h => nomatch h)⟩
  reqs := fun q h => nomatch h
  ans := fun k a cur h => nomatch h
  pings := fun x h => nomatch h
  view := fun v h => by simp [seen] at h
  rep := fun k v h => nomatch h

/-! ### Events of one member -/

/-- What the events of one member leave as it is, and what they add to. -/
structure Frame (c : Cfg) (s s' : Sys) : Prop where
  kv : s'.kv = s.kv
  cur : s'.cur = s.cur
  owner : s'.owner = s.owner
  ans : s'.ans = s.ans
  reqs : ∃ rq, s'.reqs = s.reqs ++ rq
  pings : ∃ pg, s'.pings = s.pings ++ pg
  now : s.now ≤ s'.now

theorem Frame.key {c s s'} (h : Frame c s s') : keyLeaf s' = keyLeaf s := by unfold keyLeaf; rw [h.kv]
theorem Frame.epoch {c s s'} (h : Frame c s s') : keyEpoch s' = keyEpoch s := by unfold keyEpoch; rw [h.key]

theorem getElem?_append_left' {α : Type} {l l' : List α} {k : Nat} {x : α} (h : l[k]? = some x) :
    (l ++ l')[k]? = some x := by
  rw [List.getElem?_append_left]
  · exact h
  · exact (List.getElem?_eq_some_iff.1 h).1

theorem Frame.req {c s s'} (h : Frame c s s') {k : Nat} {q} (hk : s.reqs[k]? = some q) : s'.reqs[k]? = some q := by
  obtain ⟨rq, e⟩ := h.reqs
  rw [e]; exact getElem?_append_left' hk

theorem Frame.ping {c s s'} (h : Frame c s s') {k : Nat} {q} (hk : s.pings[k]? = some q) : s'.pings[k]? = some q := by
  obtain ⟨rq, e⟩ := h.pings
  rw [e]; exact getElem?_append_left' hk

theorem MInv.frame {c s s' i m} (hs : Sane c) (hf : Frame c s s') (h : MInv c s i m) : MInv c s' i m where
  le := by rw [hf.epoch]; exact h.le
  zero := h.zero
  bound := by rw [hf.key]; exact h.bound
  hold := by rw [hf.key, hf.owner]; exact h.hold
  past := by
    rw [hf.key, hf.owner]
    intro hy l hl ho hlt
    exact Int.lt_of_lt_of_le (h.past hy l hl ho hlt) (hs.mono _ _ _ hf.now)
  czar := by rw [hf.owner]; exact h.czar
  own := by rw [hf.owner]; exact h.own
  cas := by
    intro k hk
    obtain ⟨q, h1, h2, h3, h4, h5, h6⟩ := h.cas k hk
    exact ⟨q, hf.req h1, h2, h3, h4, by rw [hf.ans]; exact h5, h6⟩
  renew := by
    intro k hk
    obtain ⟨q, h1, h2, h3, h4⟩ := h.renew k hk
    exact ⟨q, hf.req h1, h2, h3, by rw [hf.owner]; exact h4⟩
  ping := by
    intro k hk
    obtain ⟨d, h1, h2⟩ := h.ping k hk
    exact ⟨d, hf.ping h1, h2⟩

/-- Same version, same view, no new office, nothing under way. -/
theorem MInv.same {c s i m m'} (h : MInv c s i m) (hv : m'.vers.epoch = m.vers.epoch)
    (hu : m'.vers.until_ = m.vers.until_)
    (hl : (m.vers.epoch, i) ∈ s.owner → IsCzar c i m'.members)
    (hst : m'.state = .amCzar → m.state = .amCzar) (hb : m'.busy = none) : MInv c s i m' where
  le := by rw [hv]; exact h.le
  zero := by rw [hv, hu]; exact h.zero
  bound := by rw [hu]; exact h.bound
  hold := by rw [hv, hu]; exact h.hold
  past := by rw [hv, hu]; exact h.past
  czar := by rw [hv]; exact fun e => h.czar (hst e)
  own := by rw [hv]; exact hl
  cas := by rw [hb]; intro k e; cases e
  renew := by rw [hb]; intro k e; cases e
  ping := by rw [hb]; intro k e; cases e

/-- A member's own view of an epoch it owns is replaced only by one of a higher counter. -/
def Adv (s : Sys) (i : Nat) (m m' : Mem) : Prop :=
  m.vers.epoch ≤ m'.vers.epoch ∧ ((m.vers.epoch, i) ∈ s.owner → m.vers.epoch = m'.vers.epoch →
    m.vers.within < m'.vers.within ∨ (m.vers.within = m'.vers.within ∧ sameView m.members m'.members))

theorem Adv.same {s i m m'} (hv : m'.vers = m.vers) (hl : m'.members = m.members) : Adv s i m m' :=
  ⟨by rw [hv]; exact Nat.le_refl _, fun _ _ => Or.inr ⟨by rw [hv], by rw [hl]; exact .refl _⟩⟩

theorem Known.adv {c s s' i m' v} (hf : Frame c s s') (hm : s'.mem = upd s.mem i m')
    (ha : Adv s i (s.mem i) m') (h : Known s v) : Known s' v := by
  obtain ⟨p, hp, h⟩ := h
  refine ⟨p, by rw [hf.owner]; exact hp, ?_⟩
  rw [hm]
  unfold upd
  split
  · rename_i e
    subst e
    rcases h with h | ⟨h1, h2⟩
    · exact Or.inl (Nat.lt_of_lt_of_le h ha.1)
    · rcases Nat.lt_or_eq_of_le ha.1 with h3 | h3
      · exact Or.inl (h1 ▸ h3)
      · refine Or.inr ⟨h1.trans h3, ?_⟩
        rcases ha.2 (h1 ▸ hp) h3 with h4 | ⟨h4, h5⟩
        · rcases h2 with h2 | ⟨h2, -⟩ <;> exact Or.inl (by omega)
        · rcases h2 with h2 | ⟨h2, h6⟩
          · exact Or.inl (by omega)
          · exact Or.inr ⟨by omega, h6.trans h5⟩
  · exact h

theorem Inv.member {c s s' i m'} (hs : Sane c) (h : Inv c s) (hf : Frame c s s')
    (hm : s'.mem = upd s.mem i m') (hi : MInv c s' i m') (ha : Adv s i (s.mem i) m')
    (hreq : ∀ q ∈ s'.reqs, q ∈ s.reqs ∨ (q.epoch ≤ keyEpoch s ∧ IsCzar c q.src q.list))
    (hpg : ∀ x ∈ s'.pings, x ∈ s.pings ∨ x.2.name = (c.det x.1).name)
    (hsub : ∀ v ∈ seen s, v ∈ seen s')
    (hview : ∀ v ∈ seen s', v ∈ seen s ∨ Known s' v)
    (hrep : ∀ k v, (k, v) ∈ s'.replies → (k, v) ∈ s.replies ∨ RepOk c s' k v) : Inv c s' where
  key := by
    refine ⟨?_, ?_, ?_⟩
    · rw [hf.key, hf.owner, hf.cur]; exact h.key.leaf
    · rw [hf.owner, hf.epoch]; exact h.key.le
    · rw [hf.owner]; exact h.key.one
  mem := by
    intro j
    rw [hm]
    unfold upd
    split
    · rename_i e; subst e; exact hi
    · exact (h.mem j).frame hs hf
  reqs := by
    intro q hq
    rw [hf.epoch]
    rcases hreq q hq with e | e
    · exact h.reqs q e
    · exact e
  ans := by
    intro k a cur hk
    rw [hf.ans] at hk
    obtain ⟨q, h1, l, h2, h3, h4, h5⟩ := h.ans k a cur hk
    refine ⟨q, hf.req h1, l, by rw [hf.key]; exact h2, h3, h4, ?_⟩
    rw [hf.owner]
    rcases h5 with ⟨h5, h6, h7, h8, h9⟩ | h5
    · exact Or.inl ⟨h5, h6, h7, h8, fun hy hlt => Int.lt_of_lt_of_le (h9 hy hlt) (hs.mono _ _ _ hf.now)⟩
    · exact Or.inr h5
  pings := by
    intro x hx
    rcases hpg x hx with e | e
    · exact h.pings x e
    · exact e
  view := by
    intro v hv
    rcases hview v hv with e | e
    · exact (h.view v e).adv hf hm ha
    · exact e
  rep := by
    intro k v hk
    rcases hrep k v hk with e | e
    · obtain ⟨j, i', d, h1, h2, h3, h4, h5⟩ := h.rep k v e
      exact ⟨j, i', d, hf.ping h1, h2, by rw [hf.owner]; exact h3, hsub v h4, by rw [hf.key]; exact h5⟩
    · exact e

/-- Nothing but the state of member `i` changes. -/
theorem Inv.only {c s i m' t} (hs : Sane c) (h : Inv c s) (ht : s.now ≤ t) (hi : MInv c s i m')
    (ha : Adv s i (s.mem i) m') : Inv c { s.put i m' [] with now := t } := by
  have hf : Frame c s { s.put i m' [] with now := t } :=
    ⟨rfl, rfl, rfl, rfl, ⟨[], by simp [Sys.put]⟩, ⟨[], by simp [Sys.put]⟩, ht⟩
  have hseen : seen { s.put i m' [] with now := t } = seen s := by simp [seen, Sys.put]
  refine h.member hs hf rfl (hi.frame hs hf) ha (fun q hq => Or.inl hq)
    (fun x hx => Or.inl hx) ?_ ?_ (fun k v hk => Or.inl hk)
  · rw [hseen]; exact fun v hv => hv
  · rw [hseen]; exact fun v hv => Or.inl hv

/-- The same, with the version and list as they were. -/
theorem Inv.idle {c s i m' t} (hs : Sane c) (h : Inv c s) (ht : s.now ≤ t) (hv : m'.vers = (s.mem i).vers)
    (hl : m'.members = (s.mem i).members) (hst : m'.state = .amCzar → (s.mem i).state = .amCzar)
    (hb : m'.busy = none) : Inv c { s.put i m' [] with now := t } :=
  h.only hs ht ((h.mem i).same (by rw [hv]) (by rw [hv]) (by rw [hl]; exact (h.mem i).own) hst hb) (.same hv hl)

/-! ### The single events -/

theorem bidList_czar {c : Cfg} {i : Nat} (m : Mem) : IsCzar c i (bidList (c.det i) m) := by
  refine ⟨rfl, rfl, ?_⟩
  simp only [bidList]
  exact KV.lookup_erase_same _ _

theorem Inv.bid {c s s' t t2 i} (hs : Sane c) (h : Inv c s) (ht : s.now ≤ t2)
    (he : event c s t t2 (.bid i) = some s') : Inv c { s' with now := t2 } := by
  unfold event at he
  simp only at he
  split at he
  rotate_left
  · cases he
  rename_i hc
  cases he
  have hm := h.mem i
  have hf : Frame c s { s.put i { s.mem i with busy := some (.cas s.reqs.length) } [] with
      reqs := s.reqs ++ [⟨i, bidList (c.det i) (s.mem i), (s.mem i).vers.epoch, t⟩], now := t2 } :=
    ⟨rfl, rfl, rfl, rfl, ⟨_, rfl⟩, ⟨[], by simp [Sys.put]⟩, ht⟩
  have hseen : seen { s.put i { s.mem i with busy := some (.cas s.reqs.length) } [] with
      reqs := s.reqs ++ [⟨i, bidList (c.det i) (s.mem i), (s.mem i).vers.epoch, t⟩], now := t2 } = seen s := by
    simp [seen, Sys.put]
  have hm' := (hm.same (m' := { s.mem i with busy := none }) rfl rfl hm.own (fun e => e) rfl).frame hs hf
  refine h.member hs hf rfl ?_ (.same rfl rfl) ?_ (fun x hx => Or.inl hx) ?_ ?_ (fun k v hk => Or.inl hk)
  · refine ⟨hm'.le, hm'.zero, hm'.bound, hm'.hold, hm'.past, hm'.czar, hm'.own, ?_, ?_, ?_⟩
    · intro k hk
      cases hk
      refine ⟨⟨i, bidList (c.det i) (s.mem i), (s.mem i).vers.epoch, t⟩, ?_, rfl, rfl, rfl, ?_, hc.1⟩
      · simp
      · intro a cur ha _
        obtain ⟨q, hq, -⟩ := h.ans _ a cur ha
        simp at hq
    · intro k hk; cases hk
    · intro k hk; cases hk
  · intro q hq
    rcases List.mem_append.1 hq with e | e
    · exact Or.inl e
    · simp at e; subst e
      exact Or.inr ⟨hm.le, bidList_czar _⟩
  · rw [hseen]; exact fun v hv => hv
  · rw [hseen]; exact fun v hv => Or.inl hv

theorem renewing_view {c : Cfg} {i : Nat} {m : Mem} (h : IsCzar c i m.members) :
    sameView (renewing (c.det i) m).members m.members := by
  refine ⟨rfl, h.2.1.symm, fun n => ?_⟩
  simp only [renewing]
  by_cases e : n = (c.det i).name
  · subst e
    rw [KV.lookup_erase_same, h.2.2]
  · rw [KV.lookup_erase_other _ e]

theorem Inv.renew {c s s' t t2 i} (hs : Sane c) (h : Inv c s) (ht : s.now ≤ t2)
    (he : event c s t t2 (.renew i) = some s') : Inv c { s' with now := t2 } := by
  unfold event at he
  simp only at he
  split at he
  rotate_left
  · cases he
  rename_i hc
  cases he
  have hm := h.mem i
  have ho := hm.czar hc.1
  have hv := renewing_view (hm.own ho)
  generalize hn : renewing (c.det i) (s.mem i) = m1 at hv
  have e1 : m1.vers = (s.mem i).vers := by rw [← hn]; rfl
  have e2 : m1.state = (s.mem i).state := by rw [← hn]; rfl
  have hf : Frame c s { s.put i { m1 with busy := some (.renew s.reqs.length) } [] with
      reqs := s.reqs ++ [⟨i, m1.members, m1.vers.epoch, t⟩], now := t2 } :=
    ⟨rfl, rfl, rfl, rfl, ⟨_, rfl⟩, ⟨[], by simp [Sys.put]⟩, ht⟩
  have hseen : seen { s.put i { m1 with busy := some (.renew s.reqs.length) } [] with
      reqs := s.reqs ++ [⟨i, m1.members, m1.vers.epoch, t⟩], now := t2 } = seen s := by
    simp [seen, Sys.put]
  have hm' := (hm.same (m' := { m1 with busy := none }) (by rw [← e1]) (by rw [← e1])
    (fun _ => (hm.own ho).congr hv) (fun e => e2 ▸ e) rfl).frame hs hf
  refine h.member hs hf rfl ?_ ⟨by rw [← e1]; exact Nat.le_refl _, fun _ _ => Or.inr ⟨by rw [← e1], hv.symm⟩⟩ ?_
    (fun x hx => Or.inl hx) ?_ ?_
    (fun k v hk => Or.inl hk)
  · refine ⟨hm'.le, hm'.zero, hm'.bound, hm'.hold, hm'.past, hm'.czar, hm'.own, ?_, ?_, ?_⟩
    · intro k hk; cases hk
    · intro k hk
      cases hk
      exact ⟨⟨i, m1.members, m1.vers.epoch, t⟩, by simp, rfl, rfl, by rw [hf.owner]; show (m1.vers.epoch, i) ∈ _; rw [e1]; exact ho⟩
    · intro k hk; cases hk
  · intro q hq
    rcases List.mem_append.1 hq with e | e
    · exact Or.inl e
    · simp at e; subst e
      exact Or.inr ⟨by rw [e1]; exact hm.le, (hm.own ho).congr hv⟩
  · rw [hseen]; exact fun v hv => hv
  · rw [hseen]; exact fun v hv => Or.inl hv

theorem Inv.giveUp {c s s' t t2 i} (hs : Sane c) (h : Inv c s) (ht : s.now ≤ t2)
    (he : event c s t t2 (.giveUp i) = some s') : Inv c { s' with now := t2 } := by
  unfold event at he
  simp only at he
  split at he
  · split at he <;> cases he
    exact h.idle hs ht rfl rfl (fun e => e) rfl
  · split at he <;> cases he
    exact h.idle hs ht rfl rfl (fun e => by cases e) rfl
  · cases he

theorem Inv.pingFail {c s s' t t2 i} (hs : Sane c) (h : Inv c s) (ht : s.now ≤ t2)
    (he : event c s t t2 (.pingFail i) = some s') : Inv c { s' with now := t2 } := by
  unfold event at he
  simp only at he
  split at he <;> cases he
  exact h.idle hs ht rfl rfl (fun e => by cases e) rfl

theorem Inv.lapse {c s s' t t2 i} (hs : Sane c) (h : Inv c s) (ht : s.now ≤ t2)
    (he : event c s t t2 (.lapse i) = some s') : Inv c { s' with now := t2 } := by
  unfold event at he
  simp only at he
  split at he <;> cases he
  rename_i hc
  exact h.idle hs ht rfl rfl (fun e => by cases e) hc.2.1

theorem Inv.ping {c s s' t t2 i a} (hs : Sane c) (h : Inv c s) (ht : s.now ≤ t2)
    (he : event c s t t2 (.ping i a) = some s') : Inv c { s' with now := t2 } := by
  unfold event at he
  simp only at he
  split at he
  rotate_left
  · cases he
  rename_i hc
  split at he
  · cases he
    exact h.idle hs ht rfl rfl (fun e => by cases e) hc.2.1
  split at he
  · cases he
    exact h.idle hs ht rfl rfl (fun e => e) hc.2.1
  cases he
  have hm := h.mem i
  have hf : Frame c s { s.put i { s.mem i with busy := some (.ping s.pings.length) } [] with
      pings := s.pings ++ [(i, { c.det i with addr := a })], now := t2 } :=
    ⟨rfl, rfl, rfl, rfl, ⟨[], by simp [Sys.put]⟩, ⟨_, rfl⟩, ht⟩
  have hseen : seen { s.put i { s.mem i with busy := some (.ping s.pings.length) } [] with
      pings := s.pings ++ [(i, { c.det i with addr := a })], now := t2 } = seen s := by
    simp [seen, Sys.put]
  have hm' := (hm.same (m' := { s.mem i with busy := none }) rfl rfl hm.own (fun e => e) rfl).frame hs hf
  refine h.member hs hf rfl ?_ (.same rfl rfl) (fun q hq => Or.inl hq) ?_ ?_ ?_ (fun k v hk => Or.inl hk)
  · refine ⟨hm'.le, hm'.zero, hm'.bound, hm'.hold, hm'.past, hm'.czar, hm'.own, ?_, ?_, ?_⟩
    · intro k hk; cases hk
    · intro k hk; cases hk
    · intro k hk
      cases hk
      exact ⟨{ c.det i with addr := a }, by simp, hc.1⟩
  · intro x hx
    rcases List.mem_append.1 hx with e | e
    · exact Or.inl e
    · simp at e; subst e; exact Or.inr rfl
  · rw [hseen]; exact fun v hv => hv
  · rw [hseen]; exact fun v hv => Or.inl hv

end Verif.Czar

import Verif.Proofs.CzarInv
/-
The invariant of Proofs/CzarInv, continued: answers, pings, writes of the key.
-/
namespace Verif.Czar
open Verif.KV (Key Store Leaf Ticket lookup put erase leafOf doCAS)

theorem Known.congr {s : Sys} {v w : View} (h : Known s v) (h1 : w.1 = v.1) (h2 : sameView w.2 v.2) : Known s w := by
  obtain ⟨p, hp, h⟩ := h
  refine ⟨p, by rw [h1]; exact hp, ?_⟩
  rw [h1]
  rcases h with h | ⟨h3, h | ⟨h4, h5⟩⟩
  · exact Or.inl h
  · exact Or.inr ⟨h3, Or.inl h⟩
  · exact Or.inr ⟨h3, Or.inr ⟨h4, h2.trans h5⟩⟩

/-- What the czar has now is known. -/
theorem Known.now {s : Sys} {i : Nat} {v : View} (ho : (v.1.epoch, i) ∈ s.owner) (h1 : v.1 = (s.mem i).vers)
    (h2 : sameView v.2 (s.mem i).members) : Known s v :=
  ⟨i, ho, Or.inr ⟨by rw [h1], Or.inr ⟨by rw [h1], h2⟩⟩⟩

/-- Member `i` changes, and delivers views. -/
theorem Inv.deliver {c s i m' us t ls qs} (hs : Sane c) (h : Inv c s) (ht : s.now ≤ t) (hi : MInv c s i m')
    (ha : Adv s i (s.mem i) m')
    (hus : ∀ v ∈ us, Known { s.put i m' us with leases := ls, quiet := qs, now := t } v) :
    Inv c { s.put i m' us with leases := ls, quiet := qs, now := t } := by
  have hf : Frame c s { s.put i m' us with leases := ls, quiet := qs, now := t } :=
    ⟨rfl, rfl, rfl, rfl, ⟨[], by simp [Sys.put]⟩, ⟨[], by simp [Sys.put]⟩, ht⟩
  refine h.member hs hf rfl (hi.frame hs hf) ha (fun q hq => Or.inl hq) (fun x hx => Or.inl hx) ?_ ?_
    (fun k v hk => Or.inl hk)
  · intro v hv
    simp only [seen, Sys.put, List.map_append, List.mem_append] at hv ⊢
    rcases hv with hv | hv
    · exact Or.inl (Or.inl hv)
    · exact Or.inr hv
  · intro v hv
    have : v ∈ seen s ∨ v ∈ us := by
      simp only [seen, Sys.put, List.map_append, List.mem_append, List.map_map] at hv ⊢
      rcases hv with (hv | hv) | hv
      · exact Or.inl (Or.inl hv)
      · right
        obtain ⟨u, hu, rfl⟩ := List.mem_map.1 hv
        exact hu
      · exact Or.inl (Or.inr hv)
    rcases this with e | e
    · exact Or.inl e
    · exact Or.inr (hus v e)

theorem Bumped.inv {c s i m m' us} (h : MInv c s i m) (hz : m.state = .amCzar) (hb : Bumped m m' us)
    (hl : lookup m'.members.peers (c.det i).name = none) (hbu : m.busy = none) : MInv c s i m' := by
  refine h.same hb.epoch hb.until_ (fun ho => ?_) (fun e => hb.state ▸ e) (hb.busy ▸ hbu)
  have := h.own ho
  exact ⟨hb.czar.trans this.1, hb.det.trans this.2.1, hl⟩

theorem Bumped.adv {s : Sys} {i : Nat} {m m' : Mem} {us} (hb : Bumped m m' us) : Adv s i m m' :=
  ⟨Nat.le_of_eq hb.epoch.symm, fun _ _ => Or.inl (by have := hb.within; omega)⟩

theorem MInv.settle {c s i m now} (h : MInv c s i m) (hb : m.busy = none) : MInv c s i (settle m now) :=
  h.same (by simp) (by simp) (by simpa using h.own) (fun e => (settle_state e).1) (by simp [hb])

theorem Adv.settle {s : Sys} {i : Nat} {m m' : Mem} {now} (h : Adv s i m m') : Adv s i m (settle m' now) := by
  unfold Adv at *
  simpa using h

/-! ### expire -/

theorem setVers_bumped {m : Mem} {l : RList} {v : Vers} {now m' us}
    (h : setVers m v l true now = some (m', us)) (hv : v = { m.vers with within := m.vers.within + 1 })
    (h1 : l.czarName = m.members.czarName)
    (h2 : l.czarDet.map (·.det) = m.members.czarDet.map (·.det)) : Bumped m m' us := by
  obtain ⟨-, -, h5, h6⟩ := setVers_some h
  subst hv
  subst h5
  refine ⟨rfl, rfl, rfl, h1, (clone_view l).2.1.trans h2, rfl, rfl, ?_⟩
  rw [h6]
  split
  · exact Or.inr rfl
  · exact Or.inl rfl

theorem Inv.expire {c s s' t t2 j} (hs : Sane c) (h : Inv c s) (ht : s.now ≤ t2)
    (he : event c s t t2 (.expire j) = some s') : Inv c { s' with now := t2 } := by
  unfold event at he
  simp only at he
  split at he
  rotate_left
  · cases he
  rename_i hc
  have hm := h.mem j
  have ho := hm.czar hc.1
  split at he
  · cases he
    exact h.idle hs ht (by simp) (by simp) (fun e => (settle_state e).1) (by simp [hc.2.1])
  · generalize hg : silentNames c (c.det j).name (s.mem j) (c.clk j t) = gone at he
    cases hv : setVers (forget (s.mem j) gone) { (s.mem j).vers with within := (s.mem j).vers.within + 1 }
        (withoutNames (s.mem j) gone) true (c.clk j t2) with
    | none =>
      rw [hv] at he
      cases he
      exact h.idle hs ht (by simp [forget]) (by simp [forget]) (fun e => (settle_state e).1)
        (by simp [forget, hc.2.1])
    | some r =>
      obtain ⟨m', us⟩ := r
      rw [hv] at he
      cases he
      have hb : Bumped (s.mem j) m' us := by
        have := setVers_bumped hv rfl rfl (by simpa [withoutNames, forget] using (clone_view (s.mem j).members).2.1)
        exact ⟨this.epoch, this.within, this.until_, this.czar, this.det, this.state, this.busy, this.ups⟩
      have hl : lookup m'.members.peers (c.det j).name = none := by
        obtain ⟨-, -, h5, -⟩ := setVers_some hv
        rw [h5]
        refine clone_lookup_none.2 ?_
        rw [withoutNames_lookup, (hm.own ho).2.2]; simp
      have hi := (hb.inv hm hc.1 hl hc.2.1)
      refine h.deliver hs ht (hi.settle (hb.busy ▸ hc.2.1)) hb.adv.settle ?_
      intro v hv'
      rcases hb.ups with e | e
      · rw [e] at hv'; cases hv'
      · rw [e] at hv'
        simp at hv'
        subst hv'
        refine Known.now (i := j) ?_ ?_ ?_
        · show (m'.vers.epoch, j) ∈ s.owner
          rw [hb.epoch]; exact ho
        · simp [Sys.put, upd]
        · simpa [Sys.put, upd] using clone_view m'.members

/-! ### Pings -/

theorem find_mem {β : Type} {l : List (Nat × β)} {k : Nat} {b : β}
    (h : (l.find? fun x => x.1 = k).map (·.2) = some b) : (k, b) ∈ l := by
  cases hf : l.find? fun x => x.1 = k with
  | none => rw [hf] at h; cases h
  | some x =>
    rw [hf] at h
    cases h
    have h1 := List.find?_some hf
    have h2 := List.mem_of_find?_eq_some hf
    simp at h1
    rw [← h1]; exact h2

theorem Inv.serve {c s s' t t2 j k} (hs : Sane c) (h : Inv c s) (ht : s.now ≤ t2)
    (he : event c s t t2 (.serve j k) = some s') : Inv c { s' with now := t2 } := by
  unfold event at he
  simp only at he
  split at he
  · cases he
  rename_i i d hp
  split at he
  rotate_left
  · cases he
  rename_i hc
  have hm := h.mem j
  split at he
  · cases he
    exact h.idle hs ht rfl rfl (fun e => e) hc.2.2.1
  · rename_i m' us r hh
    cases he
    have hd : d.name = (c.det i).name := h.pings (i, d) (List.mem_of_getElem? hp)
    have hne : (c.det j).name ≠ d.name := fun e => hc.1 (hs.distinct _ _ (hd ▸ e.symm))
    -- the new state of the czar, and the view it answers with
    have main : MInv c s j m' ∧ Adv s j (s.mem j) m' ∧ m'.busy = none ∧
        (r = none ∧ us = [] ∨ (r = some (m'.vers, m'.members.clone) ∧ (us = [] ∨ us = [(m'.vers, m'.members.clone)]) ∧
          (m'.vers.epoch, j) ∈ s.owner)) := by
      rcases handlePing_cases hh with ⟨h1, h2, h3, h4, h5⟩ | ⟨h1, h2, h3, h4, h5, h6, h7⟩ | ⟨h1, h2, h3, h4, h5⟩
      · exact ⟨hm.same (by rw [h1]) (by rw [h1]) (by rw [h2]; exact hm.own) (fun e => absurd e h5) (h4 ▸ hc.2.2.1),
          .same h1 h2, h4 ▸ hc.2.2.1, Or.inl ⟨rfl, rfl⟩⟩
      · exact ⟨hm.same (by rw [h4]) (by rw [h4]) (fun ho => (hm.own ho).congr h5) (fun _ => h1) (h7 ▸ hc.2.2.1),
          ⟨by rw [h4]; exact Nat.le_refl _, fun _ _ => Or.inr ⟨by rw [h4], h5.symm⟩⟩, h7 ▸ hc.2.2.1,
          Or.inr ⟨rfl, Or.inl rfl, by rw [h4]; exact hm.czar h1⟩⟩
      · have ho := hm.czar h1
        exact ⟨h4.inv hm h1 (h5 _ hne (hm.own ho).2.2) hc.2.2.1, h4.adv, h4.busy ▸ hc.2.2.1,
          Or.inr ⟨rfl, h4.ups, by rw [h4.epoch]; exact ho⟩⟩
    obtain ⟨hi, ha, hb, hr⟩ := main
    have hf : Frame c s { s.put j (settle m' (c.clk j t2)) us with
        replies := s.replies ++ r.toList.map fun v => (k, v), served := s.served ++ r.toList.map fun v => (j, t, v),
        now := t2 } := ⟨rfl, rfl, rfl, rfl, ⟨[], by simp [Sys.put]⟩, ⟨[], by simp [Sys.put]⟩, ht⟩
    have hi' := hi.settle (now := c.clk j t2) hb
    have hseen : ∀ v, v ∈ seen { s.put j (settle m' (c.clk j t2)) us with
        replies := s.replies ++ r.toList.map fun v => (k, v), served := s.served ++ r.toList.map fun v => (j, t, v),
        now := t2 } ↔ v ∈ seen s ∨ v ∈ us ∨ v ∈ r.toList := by
      intro v
      simp only [seen, Sys.put, List.map_append, List.mem_append, List.map_map, Function.comp_def, List.map_id']
      constructor
      · rintro ((h | h) | (h | h))
        · exact Or.inl (Or.inl h)
        · exact Or.inr (Or.inl h)
        · exact Or.inl (Or.inr h)
        · exact Or.inr (Or.inr h)
      · rintro ((h | h) | (h | h))
        · exact Or.inl (Or.inl h)
        · exact Or.inr (Or.inl h)
        · exact Or.inl (Or.inr h)
        · exact Or.inr (Or.inr h)
    refine h.member hs hf rfl (hi'.frame hs hf) ha.settle (fun q hq => Or.inl hq) (fun x hx => Or.inl hx) ?_ ?_ ?_
    · exact fun v hv => (hseen v).2 (Or.inl hv)
    · intro v hv
      rcases (hseen v).1 hv with e | e
      · exact Or.inl e
      · right
        rcases hr with ⟨h1, h2⟩ | ⟨h1, h2, h3⟩
        · subst h1; subst h2
          simp at e
        · have : v = (m'.vers, m'.members.clone) := by
            rcases e with e | e
            · rcases h2 with h2 | h2
              · rw [h2] at e; cases e
              · rw [h2] at e; simpa using e
            · rw [h1] at e; simpa using e
          subst this
          exact Known.now (i := j) h3 (by simp [Sys.put, upd])
            (by simpa [Sys.put, upd] using clone_view m'.members)
    · intro k' v hv
      rcases List.mem_append.1 hv with e | e
      · exact Or.inl e
      · right
        obtain ⟨w, hw, e⟩ := List.mem_map.1 e
        cases e
        rcases hr with ⟨h1, h2⟩ | ⟨h1, h2, h3⟩
        · subst h1; simp at hw
        · have hw' := hw
          rw [h1] at hw'; simp at hw'
          refine ⟨j, i, d, hp, hc.1, ?_, (hseen v).2 (Or.inr (Or.inr hw)), ?_⟩
          · rw [hf.owner, hw']; exact h3
          · rw [hf.key, hw']
            exact hi.bound

/-- The answer to a ping: nothing is taken over, or the answer is. -/
theorem onReply_cases {c : Cfg} {d : Det} {m : Mem} {v : View} {now now2 : Int} {m' us ls}
    (h : onReply c d m v now now2 = (m', us, ls)) :
    (m'.vers = m.vers ∧ m'.members = m.members ∧ m'.hash = m.hash ∧ us = [] ∧ m'.busy = m.busy ∧
      (m'.state = m.state ∨ m'.state = .unknown)) ∨
    (verLe m.vers v.1 ∧ m'.vers = v.1 ∧ m'.members = v.2.clone ∧ m'.hash = some (hashOf v.2 v.1) ∧
      m'.busy = m.busy ∧ m'.state = m.state ∧
      us = if m.hash ≠ some (hashOf v.2 v.1) then [(v.1, v.2.clone.clone)] else []) := by
  unfold onReply at h
  split at h
  · simp only at h
    cases hv : setVers { m with conn := true } v.1 v.2 true now2 with
    | none => rw [hv] at h; cases h; exact Or.inl ⟨rfl, rfl, rfl, rfl, rfl, Or.inl rfl⟩
    | some r =>
      obtain ⟨m2, us2⟩ := r
      rw [hv] at h
      cases h
      obtain ⟨-, h2, h3, h4⟩ := setVers_some hv
      subst h3
      exact Or.inr ⟨h2, rfl, rfl, rfl, rfl, rfl, by rw [h4]; simp⟩
  · split at h
    · cases h; exact Or.inl ⟨rfl, rfl, rfl, rfl, rfl, Or.inl rfl⟩
    · split at h
      · cases h; exact Or.inl ⟨rfl, rfl, rfl, rfl, rfl, Or.inr rfl⟩
      · cases hv : setVers m v.1 v.2 true now2 with
        | none => rw [hv] at h; cases h; exact Or.inl ⟨rfl, rfl, rfl, rfl, rfl, Or.inl rfl⟩
        | some r =>
          obtain ⟨m2, us2⟩ := r
          rw [hv] at h
          cases h
          obtain ⟨-, h2, h3, h4⟩ := setVers_some hv
          subst h3
          exact Or.inr ⟨h2, rfl, rfl, rfl, rfl, rfl, by rw [h4]; simp⟩

theorem Inv.reply {c s s' t t2 i} (hs : Sane c) (h : Inv c s) (ht : s.now ≤ t2)
    (he : event c s t t2 (.reply i) = some s') : Inv c { s' with now := t2 } := by
  unfold event at he
  simp only at he
  split at he
  rotate_left
  · cases he
  rename_i k hb
  split at he
  · cases he
  rename_i v hv
  split at he
  · cases he
  have hm := h.mem i
  obtain ⟨d, hp, hst⟩ := hm.ping k hb
  obtain ⟨j, i', d', hp', hne, ho, hseen, hbd⟩ := h.rep k v (find_mem hv)
  have hii : i' = i := by rw [hp] at hp'; cases hp'; rfl
  subst hii
  cases hr : onReply c (c.det i') { s.mem i' with busy := none } v (c.clk i' t) (c.clk i' t2) with
  | mk m' rest =>
  obtain ⟨us, ls⟩ := rest
  rw [hr] at he
  cases he
  have no : (v.1.epoch, i') ∉ s.owner := fun e => hne (h.key.one _ _ _ e ho)
  rcases onReply_cases hr with ⟨h1, h2, h3, h4, h5, h6⟩ | ⟨h1, h2, h3, h4, h5, h6, h7⟩
  · subst h4
    refine h.deliver hs ht (hm.same (by rw [h1]) (by rw [h1]) (by rw [h2]; exact hm.own) ?_ h5) (.same h1 h2) ?_
    · rcases h6 with e | e
      · rw [e]; exact fun e => e
      · rw [e]; intro e; cases e
    · intro v hv; cases hv
  · refine h.deliver hs ht ?_ ?_ ?_
    · refine ⟨?_, ?_, ?_, ?_, ?_, ?_, ?_, ?_, ?_, ?_⟩
      · rw [h2]; exact (h.key.le _ _ ho).2
      · rw [h2]; intro e; have := (h.key.le _ _ ho).1; omega
      · rw [h2]; exact hbd
      · rw [h2]; exact fun l _ e => absurd e no
      · rw [h2]; exact fun _ l _ e => absurd e no
      · rw [h6]; intro e; simp only at e; rw [hst] at e; cases e
      · rw [h2]; exact fun e => absurd e no
      · rw [h5]; intro k e; cases e
      · rw [h5]; intro k e; cases e
      · rw [h5]; intro k e; cases e
    · refine ⟨?_, ?_⟩
      · rw [h2]; unfold verLe at h1; simp only at h1; omega
      · rw [h2]; intro e1 e2; rw [e2] at e1; exact absurd e1 no
    · intro u hu
      rw [h7] at hu
      split at hu
      · simp at hu
        subst hu
        have hadv : Adv s i' (s.mem i') m' := by
          refine ⟨?_, ?_⟩
          · rw [h2]; unfold verLe at h1; simp only at h1; omega
          · rw [h2]; intro e1 e2; rw [e2] at e1; exact absurd e1 no
        refine ((h.view v hseen).adv (c := c) (i := i') (m' := m') ?_ rfl hadv).congr rfl
          ((clone_view _).trans (clone_view _))
        exact ⟨rfl, rfl, rfl, rfl, ⟨[], by simp [Sys.put]⟩, ⟨[], by simp [Sys.put]⟩, ht⟩
      · cases hu

/-! ### Answers to writes -/

theorem bidList_view {c : Cfg} {i : Nat} {m : Mem} (h : IsCzar c i m.members) :
    sameView (bidList (c.det i) m) m.members := by
  refine ⟨h.1.symm, h.2.1.symm, fun n => ?_⟩
  simp only [bidList]
  have e : m.members.clone.czarName = (c.det i).name := h.1
  rw [e]
  by_cases hn : n = (c.det i).name
  · subst hn
    rw [KV.lookup_erase_same, h.2.2]
  · rw [KV.lookup_erase_other _ hn, KV.lookup_erase_other _ hn]
    exact (clone_view m.members).2.2 n

theorem Inv.answer {c s s' t t2 i} (hs : Sane c) (h : Inv c s) (ht : s.now ≤ t2)
    (he : event c s t t2 (.answer i) = some s') : Inv c { s' with now := t2 } := by
  unfold event at he
  simp only at he
  split at he
  · cases he
  unfold onAnswer at he
  simp only at he
  have hm := h.mem i
  split at he
  · rename_i k hb
    obtain ⟨q, hq, hsrc, hqe, hql, hqa, hqs⟩ := hm.cas k hb
    split at he
    rotate_left
    · cases he
    rename_i a cur q' ha hq'
    rw [hq] at hq'; cases hq'
    have hmem := find_mem ha
    obtain ⟨q', hq', l, hl, hae, hend, hok⟩ := h.ans k a cur hmem
    rw [hq] at hq'; cases hq'
    have hE : keyEpoch s = l.epoch := by unfold keyEpoch; rw [hl]; rfl
    -- what may be left as it was
    have idle : ∀ (m' : Mem) qs, m'.vers = (s.mem i).vers → m'.members = (s.mem i).members →
        m'.state ≠ .amCzar → m'.busy = none →
        Inv c { s.put i m' [] with leases := s.leases, quiet := qs, now := t2 } := by
      intro m' qs h1 h2 h3 h4
      exact h.deliver hs ht (hm.same (by rw [h1]) (by rw [h1]) (by rw [h2]; exact hm.own) (fun e => absurd e h3) h4)
        (.same h1 h2) (by intro v hv; cases hv)
    unfold onBid at he
    rcases hok with ⟨herr, how, hor, hle, hpast⟩ | ⟨e, herr, hne, hle, p, how, hcz⟩
    · rw [herr] at he
      simp only at he
      rw [hsrc] at how hpast
      split at he
      · cases he
        refine idle _ _ (by simp) (by simp) ?_ (by simp)
        intro e
        have := (settle_state e).1
        simp only at this
        rw [hqs] at this; cases this
      · cases hv : setVers { s.mem i with busy := none, state := .amCzar } (versOf { s.mem i with busy := none } a true)
            q.list true (c.clk i t2) with
        | none =>
          rw [hv] at he
          cases he
          have hlt : a.endTm < c.clk i t2 := by
            rcases setVers_none hv with e | e
            · exact e
            · exfalso
              apply e
              unfold verLe versOf
              simp only
              by_cases e2 : a.epoch = (s.mem i).vers.epoch
              · rw [if_pos e2]; exact Or.inr ⟨e2.symm, Nat.le_refl _⟩
              · left; omega
          have := hqa a cur hmem herr
          refine idle _ _ (by simp) (by simp) ?_ (by simp)
          intro e
          have := (settle_state e).2
          simp only at this
          omega
        | some r =>
          obtain ⟨m', us⟩ := r
          rw [hv] at he
          cases he
          obtain ⟨h1, h2, h3, h4⟩ := setVers_some hv
          have hadv : Adv s i (s.mem i) m' := by
            refine ⟨?_, ?_⟩
            · unfold verLe at h2; rw [h3]; simp only at h2 ⊢; omega
            · intro ho he
              rw [h3] at he ⊢
              right
              simp only [versOf] at he ⊢
              rw [if_pos he.symm]
              refine ⟨rfl, ?_⟩
              rw [hql]
              exact (bidList_view (hm.own ho)).symm.trans (clone_view _).symm
          have hi : MInv c s i m' := by
            refine ⟨?_, ?_, ?_, ?_, ?_, ?_, ?_, ?_, ?_, ?_⟩
            · rw [h3, hE]; exact hae
            · rw [h3]; intro e; have := (h.key.le _ _ how).1; simp only [versOf] at e; omega
            · rw [h3]; intro l' e; rw [hl] at e; cases e; simp only [versOf]; have := hs.drift; omega
            · rw [h3]; intro l' e _; rw [hl] at e; cases e; exact hle
            · rw [h3]; intro hy l' e _ hlt; rw [hl] at e; cases e
              exact Int.lt_of_lt_of_le (hpast hy hlt) (hs.mono _ _ _ (Nat.le_refl _))
            · rw [h3]; exact fun _ => how
            · rw [h3]; intro _
              have := (h.reqs q (List.mem_of_getElem? hq)).2
              rw [hsrc] at this
              exact this.congr (clone_view _)
            · rw [h3]; intro k e; cases e
            · rw [h3]; intro k e; cases e
            · rw [h3]; intro k e; cases e
          have hbz : m'.busy = none := by rw [h3]
          refine h.deliver hs ht (hi.settle hbz) hadv.settle ?_
          intro v hv'
          rcases setVers_ups hv with e | e
          · rw [e] at hv'; cases hv'
          · rw [e] at hv'
            simp at hv'
            subst hv'
            refine Known.now (i := i) ?_ ?_ ?_
            · show (m'.vers.epoch, i) ∈ s.owner
              rw [h3]; exact how
            · simp [Sys.put, upd]
            · simpa [Sys.put, upd] using clone_view m'.members
    · have no : ¬ (cur.czarName = (c.det i).name ∧ a.endTm ≠ 0) → (a.epoch, i) ∉ s.owner := by
        intro h1 h2
        have := h.key.one _ _ _ how h2
        subst this
        exact h1 ⟨hcz.1, by omega⟩
      rw [herr] at he
      have step : ∀ {s'}, some ({ s.put i (settle (if cur.czarName = (c.det i).name ∧ a.endTm ≠ 0 then
            (({ s.mem i with busy := none, dead := true } : Mem), ([] : List View), ([] : List View))
          else
            match setVers { s.mem i with busy := none, state := .notCzar } (versOf { s.mem i with busy := none } a false)
                { cur with leaseDur := c.memDur } false (c.clk i t2) with
            | none => ({ s.mem i with busy := none, state := .notCzar }, [], [])
            | some (m', us) => (m', us, [(m'.vers, m'.members)])).1 (c.clk i t2))
            (if cur.czarName = (c.det i).name ∧ a.endTm ≠ 0 then
            (({ s.mem i with busy := none, dead := true } : Mem), ([] : List View), ([] : List View))
          else
            match setVers { s.mem i with busy := none, state := .notCzar } (versOf { s.mem i with busy := none } a false)
                { cur with leaseDur := c.memDur } false (c.clk i t2) with
            | none => ({ s.mem i with busy := none, state := .notCzar }, [], [])
            | some (m', us) => (m', us, [(m'.vers, m'.members)])).2.1 with
            quiet := s.quiet ++ ((if cur.czarName = (c.det i).name ∧ a.endTm ≠ 0 then
            (({ s.mem i with busy := none, dead := true } : Mem), ([] : List View), ([] : List View))
          else
            match setVers { s.mem i with busy := none, state := .notCzar } (versOf { s.mem i with busy := none } a false)
                { cur with leaseDur := c.memDur } false (c.clk i t2) with
            | none => ({ s.mem i with busy := none, state := .notCzar }, [], [])
            | some (m', us) => (m', us, [(m'.vers, m'.members)])).2.2).map fun v => (i, v) } : Sys) = some s' →
          Inv c { s' with now := t2 } := by
        intro s' he
        split at he
        · cases he
          refine idle _ _ (by simp) (by simp) ?_ (by simp)
          intro e
          have := (settle_state e).1
          simp only at this
          rw [hqs] at this; cases this
        · rename_i hno
          cases hv : setVers { s.mem i with busy := none, state := .notCzar } (versOf { s.mem i with busy := none } a false)
              { cur with leaseDur := c.memDur } false (c.clk i t2) with
          | none =>
            rw [hv] at he
            cases he
            refine idle _ _ (by simp) (by simp) ?_ (by simp)
            intro e
            have := (settle_state e).1
            cases this
          | some r =>
            obtain ⟨m', us⟩ := r
            rw [hv] at he
            cases he
            obtain ⟨h1, h2, h3, h4⟩ := setVers_some hv
            have hus : us = [] := by rw [h4]; simp
            subst hus
            have hi : MInv c s i m' := by
              refine ⟨?_, ?_, ?_, ?_, ?_, ?_, ?_, ?_, ?_, ?_⟩
              · rw [h3, hE]; exact hae
              · rw [h3]; intro e; have := (h.key.le _ _ how).1; simp only [versOf] at e; omega
              · rw [h3]; intro l' e; rw [hl] at e; cases e; exact hle
              · rw [h3]; exact fun _ _ e => absurd e (no hno)
              · rw [h3]; exact fun _ _ _ e => absurd e (no hno)
              · rw [h3]; intro e; cases e
              · rw [h3]; exact fun e => absurd e (no hno)
              · rw [h3]; intro k e; cases e
              · rw [h3]; intro k e; cases e
              · rw [h3]; intro k e; cases e
            have hadv : Adv s i (s.mem i) m' := by
              refine ⟨?_, ?_⟩
              · unfold verLe at h2; rw [h3]; simp only at h2 ⊢; omega
              · intro ho he
                rw [h3] at he
                simp only [versOf] at he
                rw [he] at ho
                exact absurd ho (no hno)
            have hbz : m'.busy = none := by rw [h3]
            exact h.deliver hs ht (hi.settle hbz) hadv.settle (by intro v hv; cases hv)
      cases e with
      | keyNotFound => exact absurd rfl hne
      | _ => exact step he
  · rename_i k hb
    obtain ⟨q, hq, hsrc, hqe, how0⟩ := hm.renew k hb
    split at he
    rotate_left
    · cases he
    rename_i a cur ha
    have hmem := find_mem ha
    obtain ⟨q', hq', l, hl, hae, hend, hok⟩ := h.ans k a cur hmem
    rw [hq] at hq'; cases hq'
    have hE : keyEpoch s = l.epoch := by unfold keyEpoch; rw [hl]; rfl
    have idle : ∀ (m' : Mem) ls, m'.vers = (s.mem i).vers → m'.members = (s.mem i).members →
        (m'.state = .amCzar → (s.mem i).state = .amCzar) → m'.busy = none →
        Inv c { s.put i m' [] with leases := ls, quiet := s.quiet, now := t2 } := by
      intro m' qs h1 h2 h3 h4
      exact h.deliver hs ht (hm.same (by rw [h1]) (by rw [h1]) (by rw [h2]; exact hm.own) h3 h4)
        (.same h1 h2) (by intro v hv; cases hv)
    unfold onRenew at he
    split at he
    · cases he
      refine idle _ _ (by simp) (by simp) ?_ (by simp)
      intro e
      have := (settle_state e).1
      cases this
    rename_i hsome
    split at he
    · cases he
      exact idle _ _ (by simp) (by simp) (fun e => (settle_state e).1) (by simp)
    rename_i hge
    cases he
    rcases hok with ⟨herr, how, hor, hle, hpast⟩ | ⟨e, herr, -⟩
    rotate_left
    · rw [herr] at hsome; simp at hsome
    rw [hsrc] at how hpast
    simp only at hge
    refine h.deliver hs ht (MInv.settle ?_ rfl) (Adv.settle ?_) (by intro v hv; cases hv)
    · refine ⟨?_, ?_, ?_, ?_, ?_, ?_, ?_, ?_, ?_, ?_⟩
      · rw [hE]; exact hae
      · intro e; have := (h.key.le _ _ how).1; simp only at e; omega
      · intro l' e; rw [hl] at e; cases e; simp only; have := hs.drift; omega
      · intro l' e _; rw [hl] at e; cases e; exact hle
      · intro hy l' e _ hlt; rw [hl] at e; cases e; exact hpast hy hlt
      · exact fun _ => how
      · exact fun _ => hm.own how0
      · intro k e; cases e
      · intro k e; cases e
      · intro k e; cases e
    · refine ⟨?_, fun _ _ => Or.inr ⟨rfl, .refl _⟩⟩
      simp only; omega
  · cases he

end Verif.Czar

import Verif.Proofs.LeaseStep
/-
Every timed step keeps `LInv`.
-/
namespace Verif.Lease
open Verif.Raft

/-! ### The table of peers -/

theorem mem_modify {p : PeerID} {f : Info → Info} {l : List (PeerID × Info)} {x : PeerID × Info}
    (h : x ∈ modify p f l) : x ∈ l ∨ ∃ y, ((p, y) ∈ l ∨ y = {}) ∧ x = (p, f y) := by
  unfold modify at h
  split at h
  · rw [List.mem_map] at h
    obtain ⟨z, hz, rfl⟩ := h
    split
    · rename_i hzp
      right
      obtain ⟨z1, z2⟩ := z
      simp only at hzp
      subst hzp
      exact ⟨z2, Or.inl hz, rfl⟩
    · exact Or.inl hz
  · rcases List.mem_append.1 h with h | h
    · exact Or.inl h
    · rw [List.mem_singleton] at h
      exact Or.inr ⟨{}, Or.inr rfl, h⟩

theorem keys_modify {p : PeerID} {f : Info → Info} {l : List (PeerID × Info)}
    (h : (l.map (·.1)).Nodup) : ((modify p f l).map (·.1)).Nodup := by
  unfold modify
  split
  · have : (l.map fun x => if x.1 = p then (x.1, f x.2) else x).map (·.1) = l.map (·.1) := by
      rw [List.map_map]
      apply List.map_congr_left
      intro x _
      simp only [Function.comp]
      split <;> rfl
    rw [this]; exact h
  · rename_i hp
    rw [List.map_append, List.nodup_append]
    refine ⟨h, by simp, ?_⟩
    intro x hx y hy hxy
    rw [List.mem_map] at hx
    obtain ⟨z, hz, rfl⟩ := hx
    simp at hy
    apply hp
    rw [List.any_eq_true]
    exact ⟨z, hz, by simp [hxy, hy]⟩

theorem mem_fold_ping {stamp k : Nat} : ∀ {ps : List PeerID} {l : List (PeerID × Info)} {x : PeerID × Info},
    x ∈ ps.foldl (fun l p => modify p (ping stamp k) l) l →
    ∃ y, ((x.1, y) ∈ l ∨ y = {}) ∧ (x.2 = y ∨ x.2 = ping stamp k y)
  | [], l, x, h => ⟨x.2, Or.inl h, Or.inl rfl⟩
  | p :: ps, l, x, h => by
    obtain ⟨y, hy, hx⟩ := mem_fold_ping (ps := ps) h
    rcases hy with hy | hy
    · rcases mem_modify hy with hy | ⟨z, hz, hxz⟩
      · exact ⟨y, Or.inl hy, hx⟩
      · simp only [Prod.mk.injEq] at hxz
        refine ⟨z, ?_, Or.inr ?_⟩
        · rw [hxz.1]; exact hz
        · rcases hx with hx | hx <;> rw [hx, hxz.2]
          rfl
    · exact ⟨y, Or.inr hy, hx⟩

theorem keys_fold_ping {stamp k : Nat} : ∀ {ps : List PeerID} {l : List (PeerID × Info)},
    (l.map (·.1)).Nodup → ((ps.foldl (fun l p => modify p (ping stamp k) l) l).map (·.1)).Nodup
  | [], _, h => h
  | _ :: ps, _, h => keys_fold_ping (ps := ps) (keys_modify h)

section
variable {c : Cfg} {δ : Nat} {ts ts' : TSys} {t : Nat}

theorem crown_info {n n' : Node} {l : Local} : (crown n n' l).info = l.info := by
  unfold crown; split <;> rfl

theorem crown_legit {n n' : Node} {l : Local} : (crown n n' l).lastLegit = l.lastLegit := by
  unfold crown; split <;> rfl

theorem mem_after_info {a : Action} {n' : Node} {l : Local} {x : PeerID × Info}
    (h : x ∈ (after c ts t n' l a).info) : x.2 = {} ∨ x ∈ l.info ∨
      ∃ v k noop st nf fo m y, a = .deliver v k noop st nf fo ∧ ts.sys.msgs[k]? = some (.ack m) ∧
        (ts.sys.nodes v).role = .leader ∧ m.term = (ts.sys.nodes v).term ∧
        ((m.src, y) ∈ l.info ∨ y = {}) ∧ x = (m.src, pong (ts.aeOf k) (c.minElec m.src.1) y) := by
  cases a with
  | timeout v noop => simp [after] at h
  | stepDown v => exact Or.inr (Or.inl h)
  | preVote v => exact Or.inr (Or.inl h)
  | client v cm => exact Or.inr (Or.inl h)
  | send v b cn => exact Or.inr (Or.inl h)
  | crash v => simp [after] at h
  | join v p =>
    simp only [after, List.mem_append, List.mem_singleton] at h
    rcases h with h | h
    · exact Or.inr (Or.inl (List.mem_filter.1 h).1)
    · rw [h]; exact Or.inl rfl
  | leave v p =>
    simp only [after] at h
    exact Or.inr (Or.inl (List.mem_filter.1 h).1)
  | deliver v k noop st nf fo =>
    simp only [after] at h
    cases hk : ts.sys.msgs[k]? with
    | none => rw [hk] at h; exact Or.inr (Or.inl h)
    | some m =>
      rw [hk] at h
      cases m with
      | ae m =>
        simp only [afterMsg] at h
        split at h <;> exact Or.inr (Or.inl h)
      | reqVote m =>
        simp only [afterMsg] at h
        split at h <;> exact Or.inr (Or.inl h)
      | vote m =>
        simp only [afterMsg] at h
        split at h <;> exact Or.inr (Or.inl h)
      | ack m =>
        simp only [afterMsg] at h
        split at h
        · exact Or.inr (Or.inl h)
        · split at h
          · rename_i hc
            rcases mem_modify h with h | ⟨y, hy, hx⟩
            · exact Or.inr (Or.inl h)
            · exact Or.inr (Or.inr ⟨v, k, noop, st, nf, fo, m, y, rfl, hk, hc.2.1, hc.1, hy, hx⟩)
          · exact Or.inr (Or.inl h)

theorem keys_after {a : Action} {n' : Node} {l : Local} (h : (l.info.map (·.1)).Nodup) :
    ((after c ts t n' l a).info.map (·.1)).Nodup := by
  cases a with
  | timeout v noop => simp [after]
  | stepDown v => exact h
  | preVote v => exact h
  | client v cm => exact h
  | send v b cn => exact h
  | crash v => simp [after]
  | join v p =>
    simp only [after]
    rw [List.map_append, List.nodup_append]
    refine ⟨h.sublist (List.Sublist.map _ List.filter_sublist), by simp, ?_⟩
    intro x hx y hy hxy
    rw [List.mem_map] at hx
    obtain ⟨z, hz, rfl⟩ := hx
    simp at hy
    have := (List.mem_filter.1 hz).2
    rw [hxy, hy] at this
    simp at this
  | leave v p => exact h.sublist (List.Sublist.map _ List.filter_sublist)
  | deliver v k noop st nf fo =>
    simp only [after]
    cases hk : ts.sys.msgs[k]? with
    | none => exact h
    | some m =>
      cases m with
      | ae m => simp only [afterMsg]; split <;> exact h
      | reqVote m => simp only [afterMsg]; split <;> exact h
      | vote m => simp only [afterMsg]; split <;> exact h
      | ack m =>
        simp only [afterMsg]
        split
        · exact h
        · split
          · exact keys_modify h
          · exact h

theorem after_noop {a : Action} {n' : Node} {l : Local} (hc : ∀ v, a ≠ .crash v) :
    (after c ts t n' l a).noop0 = l.noop0 := by
  cases a with
  | crash v => exact absurd rfl (hc v)
  | deliver v k noop st nf fo =>
    simp only [after]
    cases hk : ts.sys.msgs[k]? with
    | none => rfl
    | some m =>
      cases m with
      | ae m => simp only [afterMsg]; split <;> rfl
      | reqVote m => simp only [afterMsg]; split <;> rfl
      | vote m => simp only [afterMsg]; split <;> rfl
      | ack m =>
        simp only [afterMsg]
        split
        · rfl
        · split <;> rfl
  | _ => rfl

/-- The last accepted message is forgotten only by a restart, replaced only by a later one. -/
theorem after_legit {a : Action} {n' : Node} {l : Local} {v : Nat} (hv : actor a = v)
    (hc : ∀ v, a ≠ .crash v) :
    (after c ts t n' l a).lastLegit = l.lastLegit ∨ (after c ts t n' l a).lastLegit = some (c.clk v t) := by
  cases a with
  | crash v => exact absurd rfl (hc v)
  | deliver v k noop st nf fo =>
    cases hv
    simp only [after]
    cases hk : ts.sys.msgs[k]? with
    | none => exact Or.inl rfl
    | some m =>
      cases m with
      | ae m => simp only [afterMsg]; split; exacts [Or.inr rfl, Or.inl rfl]
      | reqVote m => simp only [afterMsg]; split <;> exact Or.inl rfl
      | vote m => simp only [afterMsg]; split <;> exact Or.inl rfl
      | ack m =>
        simp only [afterMsg]
        split
        · exact Or.inl rfl
        · split <;> exact Or.inl rfl
  | _ => exact Or.inl rfl

theorem mem_newAccs {a : Action} {r : Acc} (h : r ∈ newAccs ts t a) :
    ∃ v k noop st nf fo m, a = .deliver v k noop st nf fo ∧ ts.sys.msgs[k]? = some (.ae m) ∧
      1 ≤ m.term ∧ (ts.sys.nodes v).term ≤ m.term ∧ r = ⟨v, (ts.sys.nodes v).inc, k, m.term, t⟩ := by
  cases a with
  | deliver v k noop st nf fo =>
    simp only [newAccs] at h
    cases hk : ts.sys.msgs[k]? with
    | none => rw [hk] at h; cases h
    | some m =>
      rw [hk] at h
      cases m with
      | ae m =>
        simp only [accepted] at h
        split at h
        · rename_i hc
          rw [List.mem_singleton] at h
          exact ⟨v, k, noop, st, nf, fo, m, rfl, hk, hc.1, hc.2, h⟩
        · cases h
      | _ => cases h
  | _ => cases h

/-! ### Terms with a later leader -/

theorem late_step {ts ts' : TSys} (hm : Mono c) (I : LInv c δ ts) (I' : Inv1 c.mem ts'.sys)
    (hnow : ts.now ≤ ts'.now)
    (hprot : ∀ r ∈ ts.accs, Prot c ts' r ∨ Expired c r ts'.now ∨ ∃ T, r.term < T ∧ Elected ts.sys.hist T)
    (hnew : ∀ r ∈ ts'.accs, r ∈ ts.accs ∨ Prot c ts' r)
    (hsaved : ∀ u, (ts.sys.nodes u).saved.term ≤ (ts'.sys.nodes u).saved.term) :
    ∀ T T', T < T' → Elected ts'.sys.hist T' → ∃ V, Quor c.mem V ∧ ∀ u ∈ V,
      T < (ts'.sys.nodes u).saved.term ∧ ∀ r ∈ ts'.accs, r.who = u → r.term = T → Expired c r ts'.now := by
  intro T T' hT hel
  have noProt : ∀ u, T < (ts'.sys.nodes u).saved.term → ∀ r, r.who = u → r.term = T → ¬ Prot c ts' r := by
    intro u hu r hru hrT hp
    have h1 := hp.term
    have h2 := I'.savedTerm u
    rw [hru] at h1
    omega
  by_cases hold : ∃ T'', T < T'' ∧ Elected ts.sys.hist T''
  · obtain ⟨T'', h1, h2⟩ := hold
    obtain ⟨V, hV, hu⟩ := I.late T T'' h1 h2
    refine ⟨V, hV, fun u huV => ?_⟩
    have hs := Nat.lt_of_lt_of_le (hu u huV).1 (hsaved u)
    refine ⟨hs, fun r hr hru hrT => ?_⟩
    rcases hnew r hr with h | h
    · exact ((hu u huV).2 r h hru hrT).later hm hnow
    · exact (noProt u hs r hru hrT h).elim
  · obtain ⟨p, Q, hQ⟩ := hel
    obtain ⟨hq, hb⟩ := I'.elQ _ _ _ hQ
    refine ⟨Q, hq, fun u huQ => ?_⟩
    have hs : T < (ts'.sys.nodes u).saved.term := by
      by_cases hup : u = p.1
      · have := (I'.elSaved _ _ _ hQ).1
        rw [hup]; omega
      · obtain ⟨m, hm, hc, hsrc, _, hmt⟩ := hb.2.2.2 u huQ hup
        have := I'.voteSaved m hm hc
        rw [hsrc, hmt] at this
        omega
    refine ⟨hs, fun r hr hru hrT => ?_⟩
    rcases hnew r hr with h | h
    · rcases hprot r h with h | h | ⟨T'', h1, h2⟩
      · exact (noProt u hs r hru hrT h).elim
      · exact h
      · exact (hold ⟨T'', by omega, h2⟩).elim
    · exact (noProt u hs r hru hrT h).elim

theorem InfoOK.mono {v v' : Nat} {x : PeerID × Info} {ms : List Msg} (h : InfoOK c δ ts v x)
    (hmsg : ts'.sys.msgs = ts.sys.msgs ++ ms)
    (hsent : ∀ k, k < ts.sys.msgs.length → ts'.sentAt k = ts.sentAt k)
    (haccs : ∀ r ∈ ts.accs, r ∈ ts'.accs) (hv : v' = v)
    (hterm : (ts'.sys.nodes v').term = (ts.sys.nodes v).term) : InfoOK c δ ts' v' x := by
  subst hv
  refine ⟨fun p hp => ?_, fun p hp => ?_⟩
  · obtain ⟨a, ha, h1, h2, h3⟩ := h.1 p hp
    refine ⟨a, by rw [hmsg]; exact getElem?_mono ha, by rw [hterm]; exact h1, h2, ?_⟩
    rw [hsent _ (List.getElem?_eq_some_iff.1 ha).1]; exact h3
  · obtain ⟨h0, h3, a, ha, h2, r, hr, hr1, hr2, hr3, hr4⟩ := h.2 p hp
    refine ⟨h0, ?_, a, by rw [hmsg]; exact getElem?_mono ha, h2, r, haccs r hr, hr1, hr2, hr3, ?_⟩
    · rw [hsent _ (List.getElem?_eq_some_iff.1 ha).1]; exact h3
    · rw [hterm]; exact hr4

theorem infoOK_empty {v : Nat} {x : PeerID × Info} (h : x.2.unacked = none) (h' : x.2.lastFull = none) :
    InfoOK c δ ts v x :=
  ⟨fun p hp => by (rw [h] at hp; cases hp), fun p hp => by (rw [h'] at hp; cases hp)⟩

theorem LInv.raft {a : Action} {v : Nat} {n' : Node} {ms : List Msg} (hm : Mono c) (I : LInv c δ ts)
    (hnow : ts.now ≤ t) (hg : guard c ts t a = true) (htr : Tr c.mem ts.sys a v n' ms)
    (hs : SlowRestart c ts t (.raft a)) (hl : NoLateAnswer c ts t (.raft a)) :
    LInv c δ (rnext c ts t a v n' ms) := by
  have G := good1_of_tr I.inv1 htr
  have I' : Inv1 c.mem (rnext c ts t a v n' ms).sys := I.inv1.put G
  have hact := actor_of_tr htr
  have hns : ∀ v b c, a ≠ .send v b c := by
    rintro v b c rfl; simp [guard] at hg
  have hself : (rnext c ts t a v n' ms).sys.nodes v = n' := put_nodes_self
  have hother : ∀ u, u ≠ v → (rnext c ts t a v n' ms).sys.nodes u = ts.sys.nodes u :=
    fun u hu => put_nodes_ne hu
  have hlself : (rnext c ts t a v n' ms).loc v =
      crown (ts.sys.nodes v) n' (after c ts t n' (ts.loc v) a) := upd_self _ _ _
  have hlother : ∀ u, u ≠ v → (rnext c ts t a v n' ms).loc u = ts.loc u := fun u hu => upd_ne _ _ hu
  have hmsg : (rnext c ts t a v n' ms).sys.msgs = ts.sys.msgs ++ ms := rfl
  have hprot : ∀ r ∈ ts.accs, Prot c (rnext c ts t a v n' ms) r ∨ Expired c r t ∨
      ∃ T, r.term < T ∧ Elected ts.sys.hist T := by
    intro r hr
    have hrt := (I.accOK r hr).1
    rcases I.prot r hr with h | h | h
    · exact h.step hm I.inv1 (Nat.le_trans hrt hnow) (.raft hg htr) hs hl
    · exact Or.inr (Or.inl (h.later hm hnow))
    · exact Or.inr (Or.inr h)
  have hnewFacts : ∀ r ∈ newAccs ts t a, r.who = v ∧ r.inc = (ts.sys.nodes v).inc ∧ r.time = t ∧
      n'.role = .follower ∧ n'.term = r.term ∧ n'.inc = (ts.sys.nodes v).inc ∧
      (∃ m, ts.sys.msgs[r.aeid]? = some (.ae m) ∧ m.src.1 ≠ v) ∧
      after c ts t n' (ts.loc v) a = { ts.loc v with
        lastLegit := some (c.clk v t), hasLeader := true, elec := c.clk v t + c.minElec v, phase2 := none } := by
    intro r hr
    obtain ⟨w, k, noop, st, nf, fo, m, rfl, hk, h1, h2, rfl⟩ := mem_newAccs hr
    cases hact
    cases htr with
    | ae hv hk' hne =>
      rename_i m'
      rw [hk] at hk'; cases hk'
      have ha := handleAE_accept (me := w) h1 h2
      refine ⟨rfl, rfl, rfl, ha.1, ha.2.1, ha.2.2, ⟨m, hk, hne⟩, ?_⟩
      simp only [after, hk, afterMsg]
      rw [if_pos ⟨h1, h2⟩]
      rfl
    | reqVote hv hk' => rw [hk] at hk'; cases hk'
    | vote hv hk' => rw [hk] at hk'; cases hk'
    | ack hv hk' => rw [hk] at hk'; cases hk'
  have hnewProt : ∀ r ∈ newAccs ts t a, Prot c (rnext c ts t a v n' ms) r := by
    intro r hr
    obtain ⟨h1, h2, h3, h4, h5, h6, h7, h8⟩ := hnewFacts r hr
    have hloc := hlself
    rw [h8, crown_of (by rw [h4]; simp)] at hloc
    refine ⟨?_, ?_, ?_, ?_, ?_, ?_⟩
    · rw [h1, hself]; exact h4
    · rw [h1, hself]; exact h5
    · rw [h1, hloc]
    · rw [h1, hloc, h3]; exact ⟨_, rfl, Nat.le_refl _⟩
    · rw [h1, hloc, h3]; exact Nat.le_refl _
    · rw [h1, hloc]; intro d T h; cases h
  have haccs : ∀ r ∈ (rnext c ts t a v n' ms).accs, r ∈ ts.accs ∨ r ∈ newAccs ts t a :=
    fun r hr => List.mem_append.1 hr
  have haccs' : ∀ r ∈ ts.accs, r ∈ (rnext c ts t a v n' ms).accs := fun r hr => List.mem_append_left _ hr
  refine ⟨I', ?_, ?_, ?_, ?_, ?_, ?_, ?_, ?_, ?_, ?_⟩
  · -- sentLe
    intro k m hk
    rw [hmsg] at hk
    rcases getElem?_new hk with hk | ⟨_, hk⟩
    · exact Nat.le_trans (I.sentLe k m hk) hnow
    · exact absurd (List.mem_of_getElem? hk) (tr_no_ae htr hns m)
  · -- accOK
    intro r hr
    rcases haccs r hr with h | h
    · obtain ⟨h1, h2, h3, m, h4, h5⟩ := I.accOK r h
      exact ⟨Nat.le_trans h1 hnow, h2, h3, m, by rw [hmsg]; exact getElem?_mono h4, h5⟩
    · obtain ⟨h1, h2, h3, h4, h5, h6, ⟨m, h7, h9⟩, h8⟩ := hnewFacts r h
      refine ⟨Nat.le_of_eq h3, by rw [h1]; exact G.isMem, ?_, m, by rw [hmsg]; exact getElem?_mono h7, by rw [h1]; exact h9⟩
      rw [h3]
      exact Nat.le_trans (I.sentLe _ _ h7) hnow
  · -- ackMsg
    intro j m hj
    rw [hmsg] at hj
    rcases getElem?_new hj with hj' | ⟨hlen, hj'⟩
    · obtain ⟨k, e, h1, h2, h3⟩ := I.ackMsg j m hj'
      refine ⟨k, e, ?_, by rw [hmsg]; exact getElem?_mono h2, fun he => ?_⟩
      · have hlt := (List.getElem?_eq_some_iff.1 hj').1
        show newAeOf ts a j = some k
        cases a with
        | deliver _ _ _ _ _ _ => simp only [newAeOf]; rw [upd_ne _ _ (by omega)]; exact h1
        | _ => exact h1
      · obtain ⟨r, hr, h⟩ := h3 he
        exact ⟨r, haccs' r hr, h⟩
    · obtain ⟨k, noop, st, nf, fo, e, ha, hk, hms, hsrc, hterm⟩ := tr_ack htr (List.mem_of_getElem? hj')
      have hjl : j = ts.sys.msgs.length := by
        rw [hms] at hj'
        have := (List.getElem?_eq_some_iff.1 hj').1
        simp at this
        omega
      refine ⟨k, e, ?_, by rw [hmsg]; exact getElem?_mono hk, fun he => ?_⟩
      · show newAeOf ts a j = some k
        rw [ha, hjl]
        exact upd_self _ _ _
      · obtain ⟨h1, h2⟩ := hterm he
        refine ⟨⟨v, (ts.sys.nodes v).inc, k, e.term, t⟩, ?_, ?_, ?_, rfl, he⟩
        · apply List.mem_append_right
          rw [ha]
          simp only [newAccs, hk, accepted]
          rw [if_pos ⟨h1, h2⟩]
          simp
        · rw [hsrc]
        · rw [hsrc]
  · -- heard
    intro r hr
    rcases haccs r hr with h | h
    · rcases I.heard r h with h1 | ⟨h1, h2⟩
      · exact Or.inl (h1.later hm hnow)
      · by_cases he : r.who = v
        · by_cases hc : ∃ w, a = .crash w
          · obtain ⟨w, rfl⟩ := hc
            cases hact
            left
            exact Unheard.expired (by rw [he]; exact hs) h2
          · have hc' : ∀ w, a ≠ .crash w := fun w hw => hc ⟨w, hw⟩
            right
            rw [he, hself, hlself, crown_legit]
            rw [he] at h1 h2
            refine ⟨?_, ?_⟩
            · rcases tr_inc htr with h3 | ⟨w, h3⟩
              · rw [h3]; exact h1
              · exact (hc' w h3).elim
            · rcases after_legit (c := c) (ts := ts) (t := t) (n' := n') (l := ts.loc v) hact hc' with h3 | h3 <;> rw [h3]
              · exact h2
              · exact ⟨_, rfl, hm _ _ _ (Nat.le_trans (I.accOK r h).1 hnow)⟩
        · rw [hother _ he, hlother _ he]; exact Or.inr ⟨h1, h2⟩
    · obtain ⟨h1, h2, h3, h4, h5, h6, h7, h8⟩ := hnewFacts r h
      right
      rw [h1, hself, h6, h2, hlself, crown_legit, h8, h3]
      exact ⟨rfl, _, rfl, Nat.le_refl _⟩
  · -- prot
    intro r hr
    rcases haccs r hr with h | h
    · rcases hprot r h with h | h | ⟨T, h1, h2⟩
      · exact Or.inl h
      · exact Or.inr (Or.inl h)
      · exact Or.inr (Or.inr ⟨T, h1, h2.put⟩)
    · exact Or.inl (hnewProt r h)
  · -- late
    refine late_step hm I I' hnow hprot (fun r hr => ?_) (fun u => ?_)
    · rcases haccs r hr with h | h
      · exact Or.inl h
      · exact Or.inr (hnewProt r h)
    · by_cases hu : u = v
      · rw [hu, hself]; exact G.st
      · rw [hother u hu]; exact Nat.le_refl _
  · -- keys
    intro u
    by_cases hu : u = v
    · rw [hu, hlself, crown_info]; exact keys_after (I.keys v)
    · rw [hlother u hu]; exact I.keys u
  · -- cand
    intro u hr x hx
    by_cases hu : u = v
    · subst hu
      rw [hself] at hr
      rw [hlself, crown_info] at hx
      have hold : (ts.sys.nodes u).role = .candidate := by
        rcases tr_role htr with h | ⟨h, _⟩ | ⟨h, _⟩ | ⟨w, noop, h⟩
        · rw [h] at hr; cases hr
        · rw [← h]; exact hr
        · exact h
        · rw [h] at hx; simp [after] at hx
      rcases mem_after_info hx with h | h | ⟨w, k, noop, st, nf, fo, m, y, rfl, hk, hlead, _⟩
      · rw [h]; exact ⟨rfl, rfl⟩
      · exact I.cand u hold x h
      · rw [show w = u from hact, hold] at hlead; cases hlead
    · rw [hother u hu] at hr
      rw [hlother u hu] at hx
      exact I.cand u hr x hx
  · -- lead
    intro u hr x hx
    by_cases hu : u = v
    · subst hu
      rw [hself] at hr
      rw [hlself, crown_info] at hx
      rcases tr_role htr with h | ⟨h, hterm⟩ | ⟨hcand, w, k, noop, st, nf, fo, m, ha, hk⟩ | ⟨w, noop, h⟩
      · rw [h] at hr; cases hr
      · have hold : (ts.sys.nodes u).role = .leader := by rw [← h]; exact hr
        rcases mem_after_info hx with h | h | ⟨w, k, noop, st, nf, fo, m, y, rfl, hk, _, hmt, hy, rfl⟩
        · exact infoOK_empty (by rw [h]) (by rw [h])
        · exact (I.lead u hold x h).mono hmsg (fun k _ => rfl) haccs' rfl (by rw [hself]; exact hterm)
        · cases hact
          have hyOK : InfoOK c δ ts w (m.src, y) := by
            rcases hy with hy | hy
            · exact I.lead w hold _ hy
            · exact infoOK_empty (by rw [hy]) (by rw [hy])
          have : InfoOK c δ ts w (m.src, pong (ts.aeOf k) (c.minElec m.src.1) y) := by
            unfold pong
            cases hun : y.unacked with
            | none => exact hyOK
            | some p =>
              dsimp only
              split
              · rename_i hpk
                refine ⟨fun q hq => hyOK.1 q (by rw [← hq]; exact hun), ?_⟩
                intro q hq
                simp only [Option.some.injEq] at hq
                subst hq
                obtain ⟨e, he, he1, he2, he3⟩ := hyOK.1 p hun
                obtain ⟨k', e', hk1, hk2, hk3⟩ := I.ackMsg k m hk
                rw [hk1] at hpk
                have hkk : p.aeid = k' := Option.some.inj hpk
                rw [hkk] at he
                rw [he] at hk2
                cases hk2
                obtain ⟨r, hr1, hr2, hr3, hr4, hr5⟩ := hk3 (he1.trans hmt.symm)
                exact ⟨rfl, he3, e, by rw [hkk]; exact he, he2, r, hr1, hr2, hr3, by rw [hr4, hkk], by rw [hr5, hmt]⟩
              · exact hyOK
          exact this.mono hmsg (fun k _ => rfl) haccs' rfl (by rw [hself]; exact hterm)
      · rcases mem_after_info hx with h | h | ⟨w, k, noop, st, nf, fo, m, y, rfl, hk, hlead, _⟩
        · exact infoOK_empty (by rw [h]) (by rw [h])
        · have := I.cand u hcand x h
          exact infoOK_empty this.1 this.2
        · rw [show w = u from hact, hcand] at hlead; cases hlead
      · rw [h] at hx; simp [after] at hx
    · rw [hother u hu] at hr
      rw [hlother u hu] at hx
      exact (I.lead u hr x hx).mono hmsg (fun k _ => rfl) haccs' rfl (by rw [hother u hu])
  · -- noop
    intro u hr
    by_cases hu : u = v
    · subst hu
      rw [hself] at hr
      rw [hlself, hself]
      have hnc : ∀ w, a ≠ .crash w := by
        rintro w rfl
        cases hact
        cases htr
        cases hr
      rcases G.lead hr with ⟨h1, h2, new, h3, _⟩ | ⟨h1, _, _, _, _, _, _, _, cmd, h3⟩
      · obtain ⟨k, hk1, hk2, hk3, hk4⟩ := I.noop u h1
        refine ⟨k, ?_, hk2, ?_, ?_⟩
        · unfold crown
          rw [if_neg fun hx => hx.2 h1, after_noop hnc]; exact hk1
        · rw [h3, List.length_append]; omega
        · rw [h3, termAt_prefix (List.prefix_append _ _) hk3, h2]; exact hk4
      · refine ⟨n'.log.length, ?_, ?_, Nat.le_refl _, ?_⟩
        · unfold crown
          rw [if_pos ⟨hr, h1⟩]
        · rw [h3]; simp
        · rw [h3]
          simp [termAt, terms]
    · rw [hother u hu] at hr
      rw [hlother u hu, hother u hu]
      exact I.noop u hr

/-- Steps that touch only timers and tables of one node. -/
theorem LInv.local {v : Nat} {l' : Local} {a : Act} (hm : Mono c) (I : LInv c δ ts) (hnow : ts.now ≤ t)
    (h : TTr c ts t a { ts with loc := upd ts.loc v l', now := t })
    (hs : SlowRestart c ts t a) (hl : NoLateAnswer c ts t a)
    (hleg : l'.lastLegit = (ts.loc v).lastLegit) (hinfo : l'.info = (ts.loc v).info)
    (hno : l'.noop0 = (ts.loc v).noop0) :
    LInv c δ { ts with loc := upd ts.loc v l', now := t } := by
  have e1 : ∀ u, (upd ts.loc v l' u).lastLegit = (ts.loc u).lastLegit := by
    intro u; by_cases hu : u = v
    · rw [hu, upd_self]; exact hleg
    · rw [upd_ne _ _ hu]
  have e2 : ∀ u, (upd ts.loc v l' u).info = (ts.loc u).info := by
    intro u; by_cases hu : u = v
    · rw [hu, upd_self]; exact hinfo
    · rw [upd_ne _ _ hu]
  have e3 : ∀ u, (upd ts.loc v l' u).noop0 = (ts.loc u).noop0 := by
    intro u; by_cases hu : u = v
    · rw [hu, upd_self]; exact hno
    · rw [upd_ne _ _ hu]
  have hprot : ∀ r ∈ ts.accs, Prot c { ts with loc := upd ts.loc v l', now := t } r ∨ Expired c r t ∨
      ∃ T, r.term < T ∧ Elected ts.sys.hist T := by
    intro r hr
    have hrt := (I.accOK r hr).1
    rcases I.prot r hr with h1 | h1 | h1
    · exact h1.step hm I.inv1 (Nat.le_trans hrt hnow) h hs hl
    · exact Or.inr (Or.inl (h1.later hm hnow))
    · exact Or.inr (Or.inr h1)
  refine ⟨I.inv1, fun k m hk => Nat.le_trans (I.sentLe k m hk) hnow, fun r hr => ?_, I.ackMsg, fun r hr => ?_,
    hprot, ?_, fun u => ?_, fun u hu x hx => ?_, fun u hu x hx => ?_, fun u hu => ?_⟩
  · obtain ⟨h1, h2⟩ := I.accOK r hr
    exact ⟨Nat.le_trans h1 hnow, h2⟩
  · dsimp only; rw [e1]
    rcases I.heard r hr with h1 | h1
    · exact Or.inl (h1.later hm hnow)
    · exact Or.inr h1
  · exact late_step hm I I.inv1 hnow hprot (fun r hr => Or.inl hr) (fun u => Nat.le_refl _)
  · dsimp only; rw [e2]; exact I.keys u
  · dsimp only at hx; rw [e2] at hx; exact I.cand u hu x hx
  · dsimp only at hx; rw [e2] at hx; exact I.lead u hu x hx
  · dsimp only; rw [e3]; exact I.noop u hu

theorem LInv.step {a : Act} (hm : Mono c) (I : LInv c δ ts) (hnow : ts.now ≤ t) (h : TTr c ts t a ts')
    (hst : StampSoon c δ ts t a) (hns : NoShadow c ts t a)
    (hs : SlowRestart c ts t a) (hl : NoLateAnswer c ts t a) : LInv c δ ts' := by
  cases h with
  | raft hg htr => exact I.raft hm hnow hg htr hs hl
  | preVoteWon hf => exact I.local hm hnow (.preVoteWon hf) hs hl rfl rfl rfl
  | elapse h1 h2 => exact I.local hm hnow (.elapse h1 h2) hs hl rfl rfl rfl
  | shadow => exact hns.elim
  | send hv hlead htr =>
    rename_i v beg cnt ps lag
    have G := good1_of_tr I.inv1 htr
    have I' := I.inv1.put G
    have hnode : ∀ u, (ts.sys.put c.mem v (ts.sys.nodes v) [.ae (mkAE v (ts.sys.nodes v) beg cnt)]).nodes u =
        ts.sys.nodes u := by
      intro u
      by_cases hu : u = v
      · rw [hu, put_nodes_self]
      · rw [put_nodes_ne hu]
    have hh : ∀ T, Elected (ts.sys.put c.mem v (ts.sys.nodes v) [.ae (mkAE v (ts.sys.nodes v) beg cnt)]).hist T ↔
        Elected ts.sys.hist T := by
      intro T
      refine ⟨fun ⟨p, Q, h⟩ => ?_, fun h => h.put⟩
      rcases mem_put_elected.1 h with h | ⟨_, h, _⟩
      · exact ⟨p, Q, h⟩
      · exact (h hlead).elim
    have hsent : ∀ k, k < ts.sys.msgs.length → upd ts.sentAt ts.sys.msgs.length t k = ts.sentAt k :=
      fun k hk => upd_ne _ _ (by omega)
    generalize hts : ({ ts with
          sys := ts.sys.put c.mem v (ts.sys.nodes v) [.ae (mkAE v (ts.sys.nodes v) beg cnt)]
          loc := upd ts.loc v { ts.loc v with
            info := ps.foldl (fun l p => modify p (ping (c.clk v (t + lag)) ts.sys.msgs.length) l) (ts.loc v).info
            free := t + lag }
          now := t
          sentAt := upd ts.sentAt ts.sys.msgs.length t } : TSys) = ts'
    have hT : TTr c ts t (.send v beg cnt ps lag) ts' := by rw [← hts]; exact .send hv hlead htr
    have hnode' : ∀ u, ts'.sys.nodes u = ts.sys.nodes u := by intro u; rw [← hts]; exact hnode u
    have hnow' : ts'.now = t := by rw [← hts]
    have haccs : ts'.accs = ts.accs := by rw [← hts]
    have hmsg : ts'.sys.msgs = ts.sys.msgs ++ [.ae (mkAE v (ts.sys.nodes v) beg cnt)] := by rw [← hts]; rfl
    have hsent' : ∀ k, k < ts.sys.msgs.length → ts'.sentAt k = ts.sentAt k := by rw [← hts]; exact hsent
    have hsentN : ts'.sentAt ts.sys.msgs.length = t := by rw [← hts]; exact upd_self _ _ _
    have hae : ts'.aeOf = ts.aeOf := by rw [← hts]
    have hinv : Inv1 c.mem ts'.sys := by rw [← hts]; exact I'
    have hel : ∀ T, Elected ts'.sys.hist T ↔ Elected ts.sys.hist T := by rw [← hts]; exact hh
    have hloc : ∀ u, (ts'.loc u).lastLegit = (ts.loc u).lastLegit ∧ (ts'.loc u).noop0 = (ts.loc u).noop0 := by
      intro u
      rw [← hts]
      by_cases hu : u = v
      · rw [hu]; dsimp only; rw [upd_self]; exact ⟨rfl, rfl⟩
      · dsimp only; rw [upd_ne _ _ hu]; exact ⟨rfl, rfl⟩
    have hinfo : ∀ u, u ≠ v → (ts'.loc u).info = (ts.loc u).info := by
      intro u hu; rw [← hts]; dsimp only; rw [upd_ne _ _ hu]
    have hinfoS : (ts'.loc v).info = ps.foldl (fun l p =>
        modify p (ping (c.clk v (t + lag)) ts.sys.msgs.length) l) (ts.loc v).info := by
      rw [← hts]; dsimp only; rw [upd_self]
    clear hts
    have hprot : ∀ r ∈ ts.accs, Prot c ts' r ∨ Expired c r ts'.now ∨
        ∃ T, r.term < T ∧ Elected ts.sys.hist T := by
      intro r hr
      rw [hnow']
      have hrt := (I.accOK r hr).1
      rcases I.prot r hr with h1 | h1 | h1
      · exact h1.step hm I.inv1 (Nat.le_trans hrt hnow) hT hs hl
      · exact Or.inr (Or.inl (h1.later hm hnow))
      · exact Or.inr (Or.inr h1)
    refine ⟨hinv, ?_, ?_, ?_, ?_, ?_, ?_, ?_, ?_, ?_, ?_⟩
    · intro k m hk
      rw [hmsg] at hk
      rw [hnow']
      rcases getElem?_new hk with hk' | ⟨hlen, hk'⟩
      · rw [hsent' _ (List.getElem?_eq_some_iff.1 hk').1]
        exact Nat.le_trans (I.sentLe k m hk') hnow
      · have := (List.getElem?_eq_some_iff.1 hk').1
        simp at this
        have : k = ts.sys.msgs.length := by omega
        rw [this, hsentN]; exact Nat.le_refl _
    · intro r hr
      rw [haccs] at hr
      obtain ⟨h1, h2, h3, m, h4, h5⟩ := I.accOK r hr
      refine ⟨by rw [hnow']; exact Nat.le_trans h1 hnow, h2, ?_, m, by rw [hmsg]; exact getElem?_mono h4, h5⟩
      rw [hsent' _ (List.getElem?_eq_some_iff.1 h4).1]; exact h3
    · intro j m hj
      rw [hmsg] at hj
      rcases getElem?_new hj with hj' | ⟨hlen, hj'⟩
      · obtain ⟨k, e, h1, h2, h3⟩ := I.ackMsg j m hj'
        rw [hae, haccs]
        exact ⟨k, e, h1, by rw [hmsg]; exact getElem?_mono h2, h3⟩
      · have := List.mem_of_getElem? hj'
        simp at this
    · intro r hr
      rw [haccs] at hr
      rw [hnow', hnode', (hloc _).1]
      rcases I.heard r hr with h1 | h1
      · exact Or.inl (h1.later hm hnow)
      · exact Or.inr h1
    · intro r hr
      rw [haccs] at hr
      rcases hprot r hr with h | h | ⟨T, h1, h2⟩
      · exact Or.inl h
      · exact Or.inr (Or.inl h)
      · exact Or.inr (Or.inr ⟨T, h1, (hel T).2 h2⟩)
    · refine late_step hm I hinv (by rw [hnow']; exact hnow) hprot (fun r hr => ?_) (fun u => ?_)
      · rw [haccs] at hr; exact Or.inl hr
      · rw [hnode']; exact Nat.le_refl _
    · intro u
      by_cases hu : u = v
      · rw [hu, hinfoS]; exact keys_fold_ping (I.keys v)
      · rw [hinfo u hu]; exact I.keys u
    · intro u hr x hx
      rw [hnode'] at hr
      by_cases hu : u = v
      · rw [hu, hlead] at hr; cases hr
      · rw [hinfo u hu] at hx; exact I.cand u hr x hx
    · intro u hr x hx
      rw [hnode'] at hr
      by_cases hu : u = v
      · subst hu
        rw [hinfoS] at hx
        obtain ⟨y, hy, hxy⟩ := mem_fold_ping hx
        have hyOK : InfoOK c δ ts' u (x.1, y) := by
          rcases hy with hy | hy
          · exact (I.lead u hr _ hy).mono hmsg hsent' (by rw [haccs]; exact fun _ h => h) rfl (by rw [hnode'])
          · exact infoOK_empty (by rw [hy]) (by rw [hy])
        rcases hxy with h | h
        · rw [← h] at hyOK; exact hyOK
        · refine ⟨fun p hp => ?_, fun p hp => ?_⟩
          · rw [h] at hp
            simp only [ping, Option.some.injEq] at hp
            subst hp
            refine ⟨mkAE u (ts.sys.nodes u) beg cnt, ?_, ?_, rfl, ?_⟩
            · rw [hmsg]; simp
            · rw [hnode']; rfl
            · dsimp only
              rw [hsentN]; exact hst
          · have := hyOK.2 p (by rw [← hp, h]; rfl)
            rw [h]
            exact this
      · rw [hinfo u hu] at hx
        exact (I.lead u hr x hx).mono hmsg hsent' (by rw [haccs]; exact fun _ h => h) rfl (by rw [hnode'])
    · intro u hr
      rw [hnode'] at hr
      rw [hnode', (hloc u).2]
      exact I.noop u hr

theorem LInv.run (hm : Mono c) : ∀ (as : List (Nat × Act)) {ts ts' : TSys}, LInv c δ ts →
    trun c ts as = some ts' → AllT (fun c => StampSoon c δ) c ts as → AllT NoShadow c ts as →
    AllT SlowRestart c ts as → AllT NoLateAnswer c ts as → LInv c δ ts' ∧ ts.now ≤ ts'.now
  | [], ts, ts', I, h, _, _, _, _ => by cases h; exact ⟨I, Nat.le_refl _⟩
  | (t, a) :: as, ts, ts', I, h, h1, h2, h3, h4 => by
    simp only [trun] at h
    rw [Option.bind_eq_some_iff] at h
    obtain ⟨ts1, hs, h⟩ := h
    simp only [AllT, hs] at h1 h2 h3 h4
    obtain ⟨hnow, htr⟩ := tstep_tr hs
    have I1 := I.step hm hnow htr h1.1 h2.1 h3.1 h4.1
    have hn : ts1.now = t := by cases htr <;> rfl
    have := LInv.run hm as I1 h h1.2 h2.2 h3.2 h4.2
    exact ⟨this.1, by omega⟩

end

end Verif.Lease

import Verif.Proofs.LeaseInv
/-
What `canServe` knows, and why no newer leader can exist.
-/
namespace Verif.Lease
open Verif.Raft

theorem scan_some {need now hb : Nat} : ∀ {order : List (PeerID × Info)} {good oldest minW u : Nat},
    scan need now hb order good oldest minW = some u →
    ∃ G : List (PeerID × Info), G.Sublist order ∧ need ≤ good + G.length ∧ u ≤ oldest + minW ∧
      ∀ x ∈ G, ∃ p, x.2.lastFull = some p ∧ now + 2 * hb < p.sent + x.2.minElec ∧
        u + 2 * hb ≤ p.sent + x.2.minElec
  | [], _, _, _, _, h => by cases h
  | x :: rest, good, oldest, minW, u, h => by
    simp only [scan] at h
    cases hf : x.2.lastFull with
    | none =>
      rw [hf] at h
      obtain ⟨G, h1, h2⟩ := scan_some h
      exact ⟨G, h1.cons _, h2⟩
    | some p =>
      rw [hf] at h
      dsimp only at h
      split at h
      · cases h
      · rename_i hw
        split at h
        · rename_i hin
          split at h
          · rename_i hd
            cases h
            refine ⟨[x], by simp, by simpa using hd, by omega, ?_⟩
            intro y hy
            rw [List.mem_singleton] at hy
            subst hy
            exact ⟨p, hf, hin, by omega⟩
          · obtain ⟨G, h1, h2, h3, h4⟩ := scan_some h
            refine ⟨x :: G, h1.cons_cons _, by simp; omega, by omega, ?_⟩
            intro y hy
            rcases List.mem_cons.1 hy with hy | hy
            · subst hy
              exact ⟨p, hf, hin, by omega⟩
            · exact h4 y hy
        · obtain ⟨G, h1, h2⟩ := scan_some h
          exact ⟨G, h1.cons _, h2⟩

theorem choose_list {α β γ : Type} {f : α → γ} {g : β → γ} {P : α → Prop} : ∀ {G : List β},
    (∀ x ∈ G, ∃ r, f r = g x ∧ P r) → ∃ R : List α, R.map f = G.map g ∧ ∀ r ∈ R, P r
  | [], _ => ⟨[], rfl, by simp⟩
  | x :: G, h => by
    obtain ⟨r, h1, h2⟩ := h x List.mem_cons_self
    obtain ⟨R, h3, h4⟩ := choose_list (G := G) fun y hy => h y (List.mem_cons_of_mem _ hy)
    refine ⟨r :: R, by simp [h1, h3], ?_⟩
    intro y hy
    rcases List.mem_cons.1 hy with hy | hy
    · rw [hy]; exact h2
    · exact h4 y hy

section
variable {c : Cfg} {δ eps : Nat} {ts : TSys} {v t hour u : Nat} {nf : Bool} {order : List (PeerID × Info)}

theorem leader_mem (I : Inv1 c.mem ts.sys) (h : (ts.sys.nodes v).role = .leader) : v ∈ c.mem := by
  obtain ⟨Q, hQ⟩ := I.leaderEl v h
  have := (I.elQ _ _ _ hQ).2
  exact this.2.1 this.2.2.1

theorem canServe_leader (h : canServe c ts v t hour nf order = some u) : (ts.sys.nodes v).role = .leader := by
  unfold canServe at h
  by_cases hr : (ts.sys.nodes v).role = .leader
  · exact hr
  · rw [if_pos hr] at h; cases h

/-- A read is served on the word of a majority whose election timers are still running. -/
theorem lease_quorum (hm : Mono c) (hd : Drift c eps) (hhb : δ + eps ≤ 2 * c.hb v) (I : LInv c δ ts)
    (ht : ts.now ≤ t) (hlen : 1 < c.mem.length) (hord : order.Perm (ts.loc v).info)
    (h : canServe c ts v t hour nf order = some u) :
    ∃ R : List Acc, (∀ r ∈ R, r ∈ ts.accs ∧ r.term = (ts.sys.nodes v).term ∧
        ∀ t2, ts.now ≤ t2 → c.clk v t2 ≤ c.clk v t ∨ c.clk v t2 < u → ¬ Expired c r t2) ∧
      Quor c.mem (v :: R.map (·.who)) := by
  have hr := canServe_leader h
  have hvm := leader_mem I.inv1 hr
  unfold canServe at h
  rw [if_neg (by simp [hr]), if_neg (by omega)] at h
  obtain ⟨k0, hk0, _⟩ := I.noop v hr
  rw [hk0] at h
  dsimp only at h
  split at h
  · cases h
  · obtain ⟨G, hsub, hneed, _, hG⟩ := scan_some h
    have hGi : ∀ x ∈ G, x ∈ (ts.loc v).info := fun x hx => hord.mem_iff.1 (hsub.subset hx)
    have facts : ∀ x ∈ G, ∃ r, r.who = x.1.1 ∧ (r.inc = x.1.2 ∧ r.who ≠ v ∧ r.who ∈ c.mem ∧ r ∈ ts.accs ∧
        r.term = (ts.sys.nodes v).term ∧
        ∀ t2, ts.now ≤ t2 → c.clk v t2 ≤ c.clk v t ∨ c.clk v t2 < u → ¬ Expired c r t2) := by
      intro x hx
      obtain ⟨p, hp, h1, h2⟩ := hG x hx
      obtain ⟨hme, hsent, a, ha, hsrc, r, hr1, hr2, hr3, hr4, hr5⟩ := (I.lead v hr x (hGi x hx)).2 p hp
      obtain ⟨ha1, ha2, ha3, a', ha4, ha5⟩ := I.accOK r hr1
      rw [hr4, ha] at ha4
      cases ha4
      refine ⟨r, hr2, hr3, ?_, ha2, hr1, hr5, ?_⟩
      · rw [← hsrc]; exact fun he => ha5 he.symm
      · intro t2 ht2 hc hexp
        have hw : c.clk v t2 + 2 * c.hb v < p.sent + c.minElec r.who := by
          rw [hme, ← hr2] at h1 h2
          omega
        rw [hr4] at ha3
        have hle : ts.sentAt p.aeid ≤ t2 := by omega
        have hmono := hm r.who _ _ ha3
        have hdr := hd r.who v _ _ hle (by omega)
        unfold Expired at hexp
        omega
    have hnames : (G.map fun x => x.1.1).Nodup := by
      have hk : (order.map (·.1)).Nodup := ((hord.map (·.1)).nodup_iff).2 (I.keys v)
      have hk2 : (G.map (·.1)).Nodup := hk.sublist (hsub.map _)
      unfold List.Nodup at hk2 ⊢
      rw [List.pairwise_map] at hk2 ⊢
      refine hk2.imp_of_mem ?_
      intro x y hx hy hne he
      apply hne
      obtain ⟨r, h1, h2, _, _, h3, _, h4⟩ := facts x hx
      obtain ⟨r', h1', h2', _, _, h3', _, h4'⟩ := facts y hy
      have e1 : (ts.sys.nodes r.who).inc = r.inc := by
        rcases I.heard r h3 with h | h
        · exact (h4 ts.now (Nat.le_refl _) (Or.inl (hm _ _ _ ht)) h).elim
        · exact h.1
      have e2 : (ts.sys.nodes r'.who).inc = r'.inc := by
        rcases I.heard r' h3' with h | h
        · exact (h4' ts.now (Nat.le_refl _) (Or.inl (hm _ _ _ ht)) h).elim
        · exact h.1
      have : x.1.2 = y.1.2 := by rw [← h2, ← h2', ← e1, ← e2, h1, h1', he]
      exact Prod.ext he this
    obtain ⟨R, hR1, hR2⟩ := choose_list (f := fun r : Acc => r.who) (g := fun x : PeerID × Info => x.1.1)
      (P := fun r => r.who ≠ v ∧ r.who ∈ c.mem ∧ r ∈ ts.accs ∧ r.term = (ts.sys.nodes v).term ∧
        ∀ t2, ts.now ≤ t2 → c.clk v t2 ≤ c.clk v t ∨ c.clk v t2 < u → ¬ Expired c r t2)
      fun x hx => by
        obtain ⟨r, h1, _, h2⟩ := facts x hx
        exact ⟨r, h1, h2⟩
    refine ⟨R, fun r hr => (hR2 r hr).2.2, ?_⟩
    refine ⟨?_, ?_, ?_⟩
    · rw [List.nodup_cons]
      refine ⟨?_, by rw [hR1]; exact hnames⟩
      intro hv
      rw [List.mem_map] at hv
      obtain ⟨r, hr, he⟩ := hv
      exact (hR2 r hr).1 he
    · intro w hw
      rcases List.mem_cons.1 hw with hw | hw
      · rw [hw]; exact hvm
      · rw [List.mem_map] at hw
        obtain ⟨r, hr, he⟩ := hw
        rw [← he]; exact (hR2 r hr).2.1
    · have hlenR : R.length = G.length := by
        have := congrArg List.length hR1
        simpa using this
      have := quorum_major c.mem nf (k := G.length + 1) (by omega) (by omega)
      simpa [hlenR] using this

/-- If the term of `v` has not moved since a read could be served, no later leader is elected. -/
theorem no_newer {ts2 : TSys} {T : Nat} {R : List Acc} (I : LInv c δ ts2)
    (hq : Quor c.mem (v :: R.map (·.who))) (hR : ∀ r ∈ R, r ∈ ts2.accs ∧ r.term = T ∧ ¬ Expired c r ts2.now)
    (hT : (ts2.sys.nodes v).term = T) : ∀ T', Elected ts2.sys.hist T' → T' ≤ T := by
  intro T' hel
  refine Classical.byContradiction fun hlt => ?_
  obtain ⟨V, hV, hu⟩ := I.late T T' (by omega) hel
  obtain ⟨w, hw1, hw2⟩ := hV.inter hq
  obtain ⟨h1, h2⟩ := hu w hw1
  rcases List.mem_cons.1 hw2 with hw | hw
  · rw [hw] at h1
    have := I.inv1.savedTerm v
    omega
  · rw [List.mem_map] at hw
    obtain ⟨r, hr, he⟩ := hw
    obtain ⟨h3, h4, h5⟩ := hR r hr
    exact h5 (h2 r h3 he h4)

/-- With one member its term bounds every election. -/
theorem no_newer_single (I : Inv1 c.mem ts.sys) (hvm : v ∈ c.mem) (hlen : c.mem.length ≤ 1) :
    ∀ T', Elected ts.sys.hist T' → T' ≤ (ts.sys.nodes v).term := by
  rintro T' ⟨p, Q, hQ⟩
  have hb := (I.elQ _ _ _ hQ).2
  have hp : p.1 ∈ c.mem := hb.2.1 hb.2.2.1
  have : p.1 = v := by
    match hmem : c.mem with
    | [] => rw [hmem] at hvm; cases hvm
    | [w] => rw [hmem] at hvm hp; simp at hvm hp; rw [hp, hvm]
    | _ :: _ :: _ => rw [hmem] at hlen; simp at hlen
  have h1 := (I.elSaved _ _ _ hQ).1
  have h2 := I.savedTerm v
  rw [this] at h1
  omega

end

end Verif.Lease

import Verif.Proofs.RaftStep
/-
Every step of the Raft model keeps `Inv1`.
-/
namespace Verif.Raft

section
variable {mem : List Nat} {s : Sys} {v : Nat} {n' : Node} {ms : List Msg}

/-- A step that leaves role, term, log and votes counted alone, or makes a follower. -/
theorem Good1.quiet (I : Inv1 mem s) (hv : v ∈ mem) (hu : Up (s.nodes v) n')
    (hlog : n'.log = (s.nodes v).log)
    (hr : n'.role = .follower ∨
      n'.role = (s.nodes v).role ∧ n'.term = (s.nodes v).term ∧ n'.yes = (s.nodes v).yes)
    (hvote : ∀ m, Msg.vote m ∈ ms → m.src.1 = v ∧ (Counted m →
      (s.nodes v).term < m.term ∧ m.term ≤ n'.saved.term ∧ n'.role = .follower))
    (hone : ∀ m m', m ∈ ms → m' ∈ ms → m = m')
    (hae : ∀ m, Msg.ae m ∈ ms → ∃ P, AEok s.hist m P) : Good1 mem s v n' ms := by
  have h := hu.saved (I.savedTerm v) (I.savedMc v)
  refine ⟨hv, h.1, h.2.1, h.2.2.1, h.2.2.2, fun _ => hu.inc, ?_, ?_, fun _ => Or.inl hlog, hvote, hone, hae⟩
  · intro hc
    rcases hr with h1 | ⟨h1, h2, h3⟩
    · rw [hc] at h1; cases h1
    · rw [hc] at h1
      rw [hu.inc, h2, h3]
      exact ⟨I.cand v h1.symm, Or.inl ⟨h1.symm, rfl⟩⟩
  · intro hl
    rcases hr with h1 | ⟨h1, h2, h3⟩
    · rw [hl] at h1; cases h1
    · rw [hl] at h1
      exact Or.inl ⟨h1.symm, h2, [], by rw [hlog, List.append_nil], by simp⟩

theorem quorum_major (mem : List Nat) (nf : Bool) {k : Nat} (h : quorum mem nf ≤ k)
    (hpos : 0 < mem.length) : mem.length < 2 * k := by
  unfold quorum at h; split at h <;> omega

/-- Winning an election after counting the votes in `yes`. -/
theorem Good1.win (I : Inv1 mem s) (hv : v ∈ mem) {n1 : Node} {noop : Nat}
    (hb : becomeLeader mem noop n1 = some n')
    (h1 : n1.term = (s.nodes v).term) (h2 : n1.log = (s.nodes v).log) (h3 : n1.inc = (s.nodes v).inc)
    (h4 : n1.mcTerm = (s.nodes v).mcTerm)
    (hr : n1.role = (s.nodes v).role)
    (hc : mem.length ≠ 1 → (s.nodes v).role = .candidate)
    (hy : mem.length ≠ 1 → Backed mem s.msgs (v, n1.inc) n1.term n1.yes)
    (hq : mem.length ≠ 1 → mem.length < 2 * n1.yes.length) : Good1 mem s v n' [] := by
  have e := becomeLeader_eq hb
  have hs := I.savedTerm v
  have hm := I.savedMc v
  refine ⟨hv, by omega, by omega, by omega, by omega, fun _ => by rw [e.2.2.1, h3], ?_, ?_, ?_,
    by simp, by simp, by simp⟩
  · intro hx; rw [e.2.1] at hx; cases hx
  · intro _
    right
    refine ⟨by rw [← hr]; exact e.1, e.2.2.2.2.1, e.2.2.2.2.2.1, by omega, by omega, ?_, ?_, ?_, noop, ?_⟩
    · split
      · rename_i hl
        exact ⟨by simp, by simpa using hv, by rw [hl]; simp⟩
      · rename_i hl
        rw [e.2.2.2.2.2.2.2.2.2.2.1]
        exact ⟨(hy hl).1, (hy hl).2.1, hq hl⟩
    · split
      · exact ⟨by simp, by simpa using hv, by simp, by simp⟩
      · rename_i hl
        rw [e.2.2.2.2.2.2.2.2.2.2.1, e.2.2.2.2.2.2.2.2.1 hl, e.2.2.1]
        exact hy hl
    · intro hl; exact ⟨hc hl, by rw [e.2.2.2.2.2.2.2.2.1 hl, h1]⟩
    · rw [← h2]; exact e.2.2.2.2.2.2.2.2.2.1
  · intro hx; exact (hx e.2.1).elim

theorem countVote_backed (I : Inv1 mem s) {m : Vote} (hm : Msg.vote m ∈ s.msgs)
    (hr : (s.nodes v).role = .candidate) (ht : (s.nodes v).term = m.term)
    (hg : m.granted = true → m.srcTerm < (s.nodes v).term ∧ m.src.1 ∈ mem) :
    Backed mem s.msgs (v, (s.nodes v).inc) (s.nodes v).term (countVote v (s.nodes v) m).yes := by
  have hb := I.cand v hr
  rcases (countVote_eq v (s.nodes v) m).2.2.2.2.2.2.2.2.2 with h | ⟨h1, h2, h3, h4⟩
  · rw [h]; exact hb
  · rw [h4]
    refine ⟨?_, ?_, List.mem_append_left _ hb.2.2.1, ?_⟩
    · rw [List.nodup_append]
      refine ⟨hb.1, by simp, ?_⟩
      intro a ha b hb' hab
      rw [List.mem_singleton] at hb'
      subst hb'; subst hab; exact h2 ha
    · intro x hx
      rcases List.mem_append.1 hx with hx | hx
      · exact hb.2.1 hx
      · rw [List.mem_singleton] at hx; subst hx; exact (hg h3).2
    · intro u hu hne
      rcases List.mem_append.1 hu with hx | hx
      · exact hb.2.2.2 u hx hne
      · rw [List.mem_singleton] at hx
        exact ⟨m, hm, ⟨h3, by have := (hg h3).1; omega⟩, hx.symm, h1, ht.symm⟩

/-- The log `handleAppendEntries` leaves behind: unchanged, or a piece of the leader's log. -/
theorem handleAE_log {h : Hist} {n : Node} {m : AE} {P : List Entry} (hP : AEok h m P)
    (hlead : LogOK h (h.lead m.term)) (hn : LogOK h n.log) {log : List Entry}
    (hu : updateLog n.log m ((terms n.log).isPrefixOf m.terms) (commonPrefix m.terms (terms n.log)) = some log)
    (hgap : (terms n.log).isPrefixOf m.terms = false → m.prev ≤ commonPrefix m.terms (terms n.log)) :
    (log = n.log ∧ n.log <+: P) ∨
      (log = P.take (m.prev + m.entries.length) ∧
        commonPrefix m.terms (terms n.log) < m.prev + m.entries.length) := by
  obtain ⟨_, h2, h3, h4, h5, _⟩ := hP
  refine updateLog_shape h3 h5 ?_ hgap hu
  have hl1 := commonPrefix_le_left m.terms (terms n.log)
  have hl2 := commonPrefix_le_right m.terms (terms n.log)
  refine LogOK.take_eq hn (hlead.prefix h2) (by rwa [terms_length] at hl2)
    (by rwa [h3, terms_length, ← h3] at hl1) ?_
  rw [← h3]; exact (commonPrefix_take _ _).symm

theorem good1_of_tr {a : Action} (I : Inv1 mem s) (h : Tr mem s a v n' ms) : Good1 mem s v n' ms := by
  cases h with
  | timeout hv hr hb =>
    rename_i noop
    rcases beginElection_eq hv hr hb with ⟨h1, h2, rfl⟩ | ⟨h1, rfl, rfl⟩
    · exact Good1.win I hv h2 rfl rfl rfl rfl rfl (fun h => (h h1).elim) (fun h => (h h1).elim)
        (fun h => (h h1).elim)
    · have hs := I.savedTerm v
      have hm := I.savedMc v
      refine ⟨hv, Nat.le_refl _, Nat.le_refl _, by dsimp only; omega, hm, fun _ => rfl, ?_, ?_, ?_,
        by simp, ?_, by simp⟩
      · intro _
        exact ⟨⟨by simp, by simpa using hv, by simp, by simp⟩, Or.inr (by dsimp only; omega)⟩
      · intro hx; cases hx
      · intro _; exact Or.inl rfl
      · intro m m' hm hm'
        rw [List.mem_singleton] at hm hm'; rw [hm, hm']
  | preVote hv hr =>
    exact Good1.quiet I hv (Up.of_eq rfl rfl rfl rfl rfl) rfl (Or.inl rfl) (by simp) (by simp) (by simp)
  | stepDown hv hr =>
    have e := becomeFollower_eq (n := s.nodes v) (mc := 0) (sv := true) (Nat.le_refl _)
    exact Good1.quiet I hv (up_becomeFollower (Nat.le_refl _)) e.2.2.1 (Or.inl e.1) (by simp) (by simp) (by simp)
  | reqVote hv hk hne =>
    rename_i k noop st nf fo m
    have e := handleRequestVote_eq v (s.nodes v) m st
    dsimp only at e
    obtain ⟨e1, e2, e3, e4, e5, e6, e7, e8, e9, e10, e11⟩ := e
    refine Good1.quiet I hv e9 e5 ?_ ?_ (by simp) (by simp)
    · rcases e10 with h | h
      · exact Or.inr h
      · exact Or.inl h.1
    · intro w hw
      simp only [List.mem_singleton, Msg.vote.injEq] at hw
      subst hw
      refine ⟨by rw [e1], fun hc => ?_⟩
      obtain ⟨hg, hlt⟩ := hc
      rw [e3, e4] at hlt
      refine ⟨by rw [e4]; exact hlt, ?_, ?_⟩
      · rw [e4, (e11 hg).2.1]; exact Nat.le_refl _
      · rcases e10 with h | h
        · omega
        · exact h.1
  | vote hv hk hto ht =>
    rename_i k noop st nf fo m
    have hmem : Msg.vote m ∈ s.msgs := List.mem_of_getElem? hk
    have c := countVote_eq v (s.nodes v) m
    rcases tallyVote_cases ht with rfl | ⟨T, mc, sv, hT, n1, rfl, hn1⟩ | ⟨hr, hterm, hg, h | ⟨hb, hq⟩⟩
    · exact Good1.quiet I hv (Up.refl _) rfl (Or.inr ⟨rfl, rfl, rfl⟩) (by simp) (by simp) (by simp)
    · have h0 : n1.term = (s.nodes v).term ∧ n1.log = (s.nodes v).log ∧ Up (s.nodes v) n1 := by
        rcases hn1 with ⟨rfl, _⟩ | ⟨rfl, _⟩
        · exact ⟨rfl, rfl, Up.refl _⟩
        · exact ⟨c.2.1, c.2.2.1, Up.of_eq c.2.2.2.1 c.2.1 c.2.2.2.2.1 (by rw [c.2.2.2.2.2.1])
            (by rw [c.2.2.2.2.2.1])⟩
      have hT' : n1.term ≤ T := by omega
      have e := becomeFollower_eq (n := n1) (mc := mc) (sv := sv) hT'
      exact Good1.quiet I hv (h0.2.2.trans (up_becomeFollower hT')) (by rw [e.2.2.1, h0.2.1])
        (Or.inl e.1) (by simp) (by simp) (by simp)
    · subst h
      have hu : Up (s.nodes v) (countVote v (s.nodes v) m) :=
        Up.of_eq c.2.2.2.1 c.2.1 c.2.2.2.2.1 (by rw [c.2.2.2.2.2.1]) (by rw [c.2.2.2.2.2.1])
      have hs := hu.saved (I.savedTerm v) (I.savedMc v)
      refine ⟨hv, hs.1, hs.2.1, hs.2.2.1, hs.2.2.2, fun _ => hu.inc, ?_, ?_, fun _ => Or.inl c.2.2.1,
        by simp, by simp, by simp⟩
      · intro _
        rw [hu.inc, c.2.1]
        exact ⟨countVote_backed I hmem hr hterm hg, Or.inl ⟨hr, rfl⟩⟩
      · intro hx; rw [c.1, hr] at hx; cases hx
    · have hb' := countVote_backed I hmem hr hterm hg
      refine Good1.win I hv hb c.2.1 c.2.2.1 c.2.2.2.1 c.2.2.2.2.1 c.1 (fun _ => hr)
        (fun _ => by rw [c.2.1, c.2.2.2.1]; exact hb') (fun _ => ?_)
      exact quorum_major mem nf hq (List.length_pos_of_mem hv)
  | ae hv hk hne =>
    rename_i k noop st nf fo m
    obtain ⟨P, hP⟩ := I.aeOK m (List.mem_of_getElem? hk)
    have hu := up_handleAE v (s.nodes v) m
    have hvote : ∀ w, Msg.vote w ∈ (handleAppendEntries v (s.nodes v) m).2.toList.map Msg.ack → False := by
      intro w hw; simp at hw
    have haes : ∀ w, Msg.ae w ∈ (handleAppendEntries v (s.nodes v) m).2.toList.map Msg.ack → False := by
      intro w hw; simp at hw
    have hone : ∀ x y, x ∈ (handleAppendEntries v (s.nodes v) m).2.toList.map Msg.ack →
        y ∈ (handleAppendEntries v (s.nodes v) m).2.toList.map Msg.ack → x = y := by
      intro x y hx hy
      simp only [List.mem_map, Option.mem_toList] at hx hy
      obtain ⟨a, ha, rfl⟩ := hx
      obtain ⟨b, hb, rfl⟩ := hy
      rw [ha] at hb; cases hb; rfl
    rcases handleAE_cases v (s.nodes v) m with ⟨_, h⟩ | ⟨n1, rej, ns, k', h, _, h2⟩
    · refine Good1.quiet I hv hu (by rw [h]) (by rw [h]; exact Or.inr ⟨rfl, rfl, rfl⟩)
        (fun w hw => (hvote w hw).elim) hone (fun w hw => (haes w hw).elim)
    · have c := commitWhatWeCan_eq n1
      rcases h2 with ⟨hlt, hn1, _⟩ | ⟨hle, hn1, _⟩ | ⟨hle, _, log, hup, hgap, _, _, hn1⟩
      · refine Good1.quiet I hv hu ?_ ?_ (fun w hw => (hvote w hw).elim) hone (fun w hw => (haes w hw).elim)
        · rw [h, c.2.2.1, hn1]
        · right; rw [h, c.1, c.2.1, c.2.2.2.2.2.2.1, hn1]; exact ⟨rfl, rfl, rfl⟩
      · have f := follow_eq (n := { s.nodes v with commit := max (s.nodes v).commit (min m.commit (commonPrefix m.terms (terms (s.nodes v).log))) }) hle
        refine Good1.quiet I hv hu ?_ ?_ (fun w hw => (hvote w hw).elim) hone (fun w hw => (haes w hw).elim)
        · rw [h, c.2.2.1, hn1, f.2.2.1]
        · left; rw [h, c.1, hn1, f.1]
      · have f := follow_eq (n := { s.nodes v with commit := max (s.nodes v).commit (min m.commit (commonPrefix m.terms (terms (s.nodes v).log))) }) hle
        have hrole : (handleAppendEntries v (s.nodes v) m).1.role = .follower := by
          rw [h]; rw [c.1, hn1]; exact f.1
        have hs := hu.saved (I.savedTerm v) (I.savedMc v)
        refine ⟨hv, hs.1, hs.2.1, hs.2.2.1, hs.2.2.2, fun _ => hu.inc, ?_, ?_, fun _ => ?_,
          fun w hw => (hvote w hw).elim, hone, fun w hw => (haes w hw).elim⟩
        · intro hx; rw [hrole] at hx; cases hx
        · intro hx; rw [hrole] at hx; cases hx
        · have hlog : (handleAppendEntries v (s.nodes v) m).1.log = log := by
            rw [h]; rw [c.2.2.1, hn1]
          rw [hlog]
          rcases handleAE_log hP (I.leadOK _) (I.logOK v) hup hgap with h6 | h6
          · exact Or.inl h6.1
          · right; rw [h6.1]
            exact (I.leadOK m.term).prefix ((List.take_prefix _ _).trans hP.2.1)
  | ack hv hk hto =>
    rename_i k noop st nf fo m
    rcases handleAck_cases mem v (s.nodes v) m nf fo with ⟨mc, hlt, h, _⟩ | h | ⟨hr, hterm, x, _, h | h⟩ <;> rw [h]
    · have e := becomeFollower_eq (n := s.nodes v) (mc := mc) (sv := true) (Nat.le_of_lt hlt)
      exact Good1.quiet I hv (up_becomeFollower (Nat.le_of_lt hlt)) e.2.2.1 (Or.inl e.1) (by simp) (by simp) (by simp)
    · exact Good1.quiet I hv (Up.refl _) rfl (Or.inr ⟨rfl, rfl, rfl⟩) (by simp) (by simp) (by simp)
    · exact Good1.quiet I hv (Up.of_eq rfl rfl rfl rfl rfl) rfl (Or.inr ⟨rfl, rfl, rfl⟩) (by simp) (by simp) (by simp)
    · have e := leaderAdvance_eq mem { s.nodes v with peers := setMatch (s.nodes v).peers m.src x } nf
      exact Good1.quiet I hv (Up.trans' e.2.2.2.2.2 (Up.of_eq rfl rfl rfl rfl rfl)) e.2.2.1
        (Or.inr ⟨e.1, e.2.1, e.2.2.2.2.1⟩) (by simp) (by simp) (by simp)
  | client hv hr =>
    rename_i cmds
    have e : (replicateBatch mem (s.nodes v) cmds).log =
        (s.nodes v).log ++ cmds.map (fun c => ⟨(s.nodes v).term, c⟩) ∧
        (replicateBatch mem (s.nodes v) cmds).role = .leader ∧
        (replicateBatch mem (s.nodes v) cmds).term = (s.nodes v).term ∧
        Up (s.nodes v) (replicateBatch mem (s.nodes v) cmds) := by
      unfold replicateBatch; dsimp only; split
      · have c := commitWhatWeCan_eq { s.nodes v with
          log := (s.nodes v).log ++ cmds.map (fun c => (⟨(s.nodes v).term, c⟩ : Entry)),
          commit := ((s.nodes v).log ++ cmds.map (fun c => (⟨(s.nodes v).term, c⟩ : Entry))).length }
        exact ⟨c.2.2.1, c.1.trans hr, c.2.1, Up.trans' (up_commitWhatWeCan _) (Up.of_eq rfl rfl rfl rfl rfl)⟩
      · exact ⟨rfl, hr, rfl, Up.of_eq rfl rfl rfl rfl rfl⟩
    have hs := e.2.2.2.saved (I.savedTerm v) (I.savedMc v)
    refine ⟨hv, hs.1, hs.2.1, hs.2.2.1, hs.2.2.2, fun _ => e.2.2.2.inc, ?_, ?_, ?_, by simp, by simp, by simp⟩
    · intro hx; rw [e.2.1] at hx; cases hx
    · intro _
      refine Or.inl ⟨hr, e.2.2.1, _, e.1, ?_⟩
      intro x hx
      rw [List.mem_map] at hx
      obtain ⟨c, _, rfl⟩ := hx
      exact e.2.2.1.symm
    · intro hx; exact (hx e.2.1).elim
  | send hv hr hc =>
    rename_i beg cnt
    refine Good1.quiet I hv (Up.refl _) rfl (Or.inr ⟨rfl, rfl, rfl⟩) (by simp) (by simp) ?_
    intro m hm
    simp only [List.mem_singleton, Msg.ae.injEq] at hm
    subst hm
    refine ⟨(s.nodes v).log, ?_, ?_, rfl, ?_, ?_, rfl⟩
    · obtain ⟨Q, hQ⟩ := I.leaderEl v hr; exact ⟨_, _, hQ⟩
    · show (s.nodes v).log <+: s.hist.lead (s.nodes v).term
      rw [I.leadLog v hr]; exact List.prefix_refl _
    · unfold mkAE; dsimp only; split <;> omega
    · unfold mkAE; dsimp only; split
      · rename_i h0; rw [h0, List.take_zero]; exact List.nil_prefix
      · exact List.take_prefix _ _
  | join hv =>
    exact Good1.quiet I hv (Up.of_eq rfl rfl rfl rfl rfl) rfl (Or.inr ⟨rfl, rfl, rfl⟩) (by simp) (by simp) (by simp)
  | leave hv =>
    exact Good1.quiet I hv (Up.of_eq rfl rfl rfl rfl rfl) rfl (Or.inr ⟨rfl, rfl, rfl⟩) (by simp) (by simp) (by simp)
  | crash hv =>
    refine ⟨hv, Nat.le_refl _, Nat.le_refl _, Nat.le_refl _, Nat.le_refl _, ?_, ?_, ?_, ?_, by simp, by simp, by simp⟩
    · intro hx; exact (hx rfl).elim
    · intro hx; cases hx
    · intro hx; cases hx
    · intro _; exact Or.inl rfl

end

theorem inv1_init (mem : List Nat) : Inv1 mem {} := by
  constructor <;> intros <;> simp_all [LogOK, Elected]

theorem inv1_step {mem : List Nat} {s s' : Sys} {a : Action} (I : Inv1 mem s)
    (h : step mem s a = some s') : Inv1 mem s' := by
  obtain ⟨v, n', ms, ht, rfl⟩ := step_tr h
  exact I.put (good1_of_tr I ht)

theorem inv1_run {mem : List Nat} : ∀ (as : List Action) {s s' : Sys}, Inv1 mem s →
    run mem s as = some s' → Inv1 mem s'
  | [], s, s', I, h => by cases h; exact I
  | a :: as, s, s', I, h => by
    simp only [run, Option.bind_eq_some_iff] at h
    obtain ⟨s1, h1, h2⟩ := h
    exact inv1_run as (inv1_step I h1) h2

end Verif.Raft

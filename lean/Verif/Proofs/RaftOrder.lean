import Verif.Proofs.RaftMain
/-
Order of submissions, and where entries come from.
-/
namespace Verif.Raft

section
variable {mem : List Nat} {s : Sys} {a : Action} {v : Nat} {n' : Node} {ms : List Msg}

theorem lead_run : ∀ (as : List Action) {s s' : Sys}, Inv1 mem s → run mem s as = some s' →
    ∀ t, s.hist.lead t <+: s'.hist.lead t
  | [], s, s', _, h => by cases h; exact fun _ => List.prefix_refl _
  | a :: as, s, s', I, h => by
    simp only [run, Option.bind_eq_some_iff] at h
    obtain ⟨s1, h1, h2⟩ := h
    obtain ⟨v, n', ms, ht, rfl⟩ := step_tr h1
    have G := good1_of_tr I ht
    exact fun t => (lead_prefix I G t).trans (lead_run as (I.put G) h2 t)

theorem committed_run : ∀ (as : List Action) {s s' : Sys} {t i : Nat}, Inv1 mem s → run mem s as = some s' →
    Committed mem s t i → Committed mem s' t i
  | [], s, s', _, _, _, h, hc => by cases h; exact hc
  | a :: as, s, s', t, i, I, h, hc => by
    simp only [run, Option.bind_eq_some_iff] at h
    obtain ⟨s1, h1, h2⟩ := h
    obtain ⟨v, n', ms, ht, rfl⟩ := step_tr h1
    have G := good1_of_tr I ht
    exact committed_run as (I.put G) h2 (committed_mono I G hc)

/-- Two committed positions agree below both. -/
theorem committed_agree (I2 : Inv2 mem s) {t i t' i' idx : Nat} {e f : Entry} (c : Committed mem s t i)
    (c' : Committed mem s t' i') (h1 : idx < i) (h2 : idx < i') (he : (s.hist.lead t)[idx]? = some e)
    (hf : (s.hist.lead t')[idx]? = some f) : e = f := by
  have key : ∀ {t i t' : Nat} {e f : Entry}, Committed mem s t i → Elected s.hist t' → t ≤ t' →
      idx < i → (s.hist.lead t)[idx]? = some e → (s.hist.lead t')[idx]? = some f → e = f := by
    intro t i t' e f c c' hle hi he hf
    have hp := c.lead I2 c' hle
    have : ((s.hist.lead t).take i)[idx]? = some e := by
      rw [List.getElem?_take, if_pos hi]; exact he
    obtain ⟨r, hr⟩ := hp
    rw [← hr, List.getElem?_append_left (List.getElem?_eq_some_iff.1 this).1, this] at hf
    exact Option.some.inj hf
  rcases Nat.le_total t t' with hle | hle
  · exact key c c'.2.1 hle h1 he hf
  · exact (key c' c.2.1 hle h2 hf he).symm

theorem getElem?_of_prefix {A B : List Entry} {i : Nat} {e : Entry} (h : A <+: B) (ha : A[i]? = some e) :
    B[i]? = some e := by
  obtain ⟨r, rfl⟩ := h
  rw [List.getElem?_append_left (List.getElem?_eq_some_iff.1 ha).1, ha]

/-- A leader's log grows by client requests only. -/
theorem tr_grow (htr : Tr mem s a v n' ms) (hl : (s.nodes v).role = .leader) (hl' : n'.role = .leader) :
    n'.log = (s.nodes v).log ∨ ∃ cmds, a = .client v cmds ∧
      n'.log = (s.nodes v).log ++ cmds.map fun c => ⟨(s.nodes v).term, c⟩ := by
  cases htr with
  | timeout hv hr hb => rw [hl] at hr; cases hr
  | preVote => cases hl'
  | stepDown => rw [(becomeFollower_eq (Nat.le_refl _)).1] at hl'; cases hl'
  | reqVote =>
    rename_i k noop st nf fo m _ _ _
    exact Or.inl (handleRequestVote_eq v (s.nodes v) m st).2.2.2.2.1
  | vote hv hk hto ht =>
    rename_i k noop st nf fo m
    rcases tallyVote_cases ht with rfl | ⟨T, mc, sv, hT, n1, rfl, hn1⟩ | ⟨hr, _⟩
    · exact Or.inl rfl
    · have c := countVote_eq v (s.nodes v) m
      rcases hn1 with ⟨rfl, _⟩ | ⟨rfl, _⟩
      · rw [(becomeFollower_eq hT).1] at hl'; cases hl'
      · rw [(becomeFollower_eq (by rw [c.2.1]; exact hT)).1] at hl'; cases hl'
    · rw [hl] at hr; cases hr
  | ae hv hk hne =>
    rename_i k noop st nf fo m
    rcases handleAE_cases v (s.nodes v) m with ⟨_, h'⟩ | ⟨n1, rej, ns, q, h', h1, h2⟩
    · rw [h']; exact Or.inl rfl
    · rw [h'] at hl' ⊢
      have cw := commitWhatWeCan_eq n1
      dsimp only at hl' ⊢
      rw [cw.1] at hl'
      rw [cw.2.2.1]
      rcases h2 with ⟨_, rfl, _⟩ | ⟨hle, rfl, _⟩ | ⟨hle, _, log, _, _, _, _, rfl⟩
      · exact Or.inl rfl
      · have f := follow_eq (n := { s.nodes v with commit := max (s.nodes v).commit (min m.commit (commonPrefix m.terms (terms (s.nodes v).log))) }) hle
        rw [f.1] at hl'; cases hl'
      · have f := follow_eq (n := { s.nodes v with commit := max (s.nodes v).commit (min m.commit (commonPrefix m.terms (terms (s.nodes v).log))) }) hle
        dsimp only at hl'
        rw [f.1] at hl'; cases hl'
  | ack hv hk hto =>
    rename_i k noop st nf fo m
    rcases handleAck_cases mem v (s.nodes v) m nf fo with ⟨mc, hlt, h', _⟩ | h' | ⟨hr, hterm, x, _, h' | h'⟩ <;> rw [h'] at hl' ⊢
    · rw [(becomeFollower_eq (Nat.le_of_lt hlt)).1] at hl'; cases hl'
    · exact Or.inl rfl
    · exact Or.inl rfl
    · rcases leaderAdvance_cases mem { s.nodes v with peers := setMatch (s.nodes v).peers m.src x } nf
        with h1 | ⟨i, h1, h2, h3, h4, h5, h6⟩
      · rw [h1]; exact Or.inl rfl
      · rw [h6, (commitWhatWeCan_eq _).2.2.1]; exact Or.inl rfl
  | client hv hr =>
    rename_i cmds
    refine Or.inr ⟨cmds, rfl, ?_⟩
    unfold replicateBatch
    dsimp only
    split
    · rw [(commitWhatWeCan_eq _).2.2.1]
    · rfl
  | send => exact Or.inl rfl
  | join => exact Or.inl rfl
  | leave => exact Or.inl rfl
  | crash => cases hl'

/-- Some action of the run `as` put entry `e` at position `i` of a leader's log: a client's request
or the node's becoming leader. -/
def Origin (mem : List Nat) (as : List Action) (i : Nat) (e : Entry) : Prop :=
  ∃ pre a post s0 s1 v, as = pre ++ a :: post ∧ run mem {} pre = some s0 ∧ step mem s0 a = some s1 ∧
    (s1.nodes v).role = .leader ∧ (s1.nodes v).term = e.term ∧ (s1.nodes v).log[i - 1]? = some e ∧
    (s0.nodes v).log.length < i ∧
    ((∃ cmds, a = .client v cmds ∧ (s0.nodes v).role = .leader ∧
        cmds[i - 1 - (s0.nodes v).log.length]? = some e.cmd) ∨
      ((s0.nodes v).role ≠ .leader ∧ i = (s0.nodes v).log.length + 1))

theorem Origin.more {as bs : List Action} {i : Nat} {e : Entry} (h : Origin mem as i e) :
    Origin mem (as ++ bs) i e := by
  obtain ⟨pre, a, post, s0, s1, v, h, h'⟩ := h
  exact ⟨pre, a, post ++ bs, s0, s1, v, by rw [h]; simp, h'⟩

structure OInv (mem : List Nat) (as : List Action) (s : Sys) : Prop where
  inv1 : Inv1 mem s
  org : ∀ T i e, (s.hist.lead T)[i]? = some e → e.term = T → Origin mem as (i + 1) e
  appl : ∀ w i e, (w, i, e) ∈ s.hist.applied → 1 ≤ i ∧ (s.hist.lead e.term)[i - 1]? = some e

theorem oinv_init (mem : List Nat) : OInv mem [] {} :=
  ⟨inv1_init mem, by intro T i e h; simp at h, by intro w i e h; simp at h⟩

theorem OInv.step {as : List Action} {s' : Sys} (O : OInv mem as s) (hr : run mem {} as = some s)
    (h : step mem s a = some s') : OInv mem (as ++ [a]) s' := by
  have h0 := h
  obtain ⟨v, n', ms, htr, rfl⟩ := step_tr h
  have G := good1_of_tr O.inv1 htr
  have I' := O.inv1.put G
  refine ⟨I', ?_, ?_⟩
  · intro T i e hi he
    by_cases hT : n'.role = .leader ∧ T = n'.term
    · obtain ⟨hl, rfl⟩ := hT
      rw [put_lead_self hl] at hi
      by_cases hlt : i < (s.nodes v).log.length
      · -- it was there before
        have hold : (s.nodes v).log[i]? = some e := by
          rcases G.lead hl with ⟨_, _, new, hn, _⟩ | ⟨_, _, _, _, _, _, _, _, c, hn⟩ <;>
            (rw [hn, List.getElem?_append_left hlt] at hi; exact hi)
        have hlo := O.inv1.logOK v i hlt
        have hge : (s.nodes v).log[i] = e := (List.getElem?_eq_some_iff.1 hold).2
        rw [hge] at hlo
        have : ((s.nodes v).log.take (i + 1))[i]? = some e := by
          rw [List.getElem?_take, if_pos (by omega)]; exact hold
        exact (O.org _ i e (getElem?_of_prefix hlo.2 this) rfl).more
      · rcases G.lead hl with ⟨k1, k2, _⟩ | ⟨k1, _, _, _, _, _, _, _, c, hn⟩
        · rcases tr_grow htr k1 hl with hn | ⟨cmds, rfl, hn⟩
          · rw [hn] at hi
            have := (List.getElem?_eq_some_iff.1 hi).1
            omega
          · refine ⟨as, _, [], s, _, v, rfl, hr, h0, ?_, ?_, ?_, by omega, Or.inl ⟨cmds, rfl, k1, ?_⟩⟩
            · rw [put_nodes_self]; exact hl
            · rw [put_nodes_self]; exact he.symm
            · rw [put_nodes_self]; exact hi
            · rw [hn, List.getElem?_append_right (by omega), List.getElem?_map, Option.map_eq_some_iff] at hi
              obtain ⟨x, hx, hxe⟩ := hi
              rw [show i + 1 - 1 - (s.nodes v).log.length = i - (s.nodes v).log.length by omega, hx, ← hxe]
        · have hlen := (List.getElem?_eq_some_iff.1 hi).1
          rw [hn, List.length_append] at hlen
          refine ⟨as, _, [], s, _, v, rfl, hr, h0, ?_, ?_, ?_, by omega, Or.inr ⟨k1, ?_⟩⟩
          · rw [put_nodes_self]; exact hl
          · rw [put_nodes_self]; exact he.symm
          · rw [put_nodes_self]; exact hi
          · simp at hlen; omega
    · rw [put_lead_ne (fun hl hTe => hT ⟨hl, hTe⟩)] at hi
      exact (O.org T i e hi he).more
  · intro w i e h
    have : (w, i, e) ∈ s.hist.applied ∨ ∃ p ∈ newlyApplied (s.nodes v) n', (v, p.1, p.2) = (w, i, e) := by
      simpa [Sys.put, List.mem_append, List.mem_map] using h
    rcases this with h | ⟨⟨i', e'⟩, hp, he⟩
    · obtain ⟨h1, h2⟩ := O.appl w i e h
      exact ⟨h1, getElem?_of_prefix (lead_prefix O.inv1 G _) h2⟩
    · simp only [Prod.mk.injEq] at he
      obtain ⟨_, rfl, rfl⟩ := he
      obtain ⟨h1, _, h3⟩ := mem_newlyApplied hp
      refine ⟨h1, ?_⟩
      have hlt := (List.getElem?_eq_some_iff.1 h3).1
      have hlo := I'.logOK v
      rw [put_nodes_self] at hlo
      have hlo := hlo (i' - 1) hlt
      rw [(List.getElem?_eq_some_iff.1 h3).2] at hlo
      refine getElem?_of_prefix hlo.2 ?_
      rw [List.getElem?_take, if_pos (by omega)]; exact h3

theorem run_append : ∀ (as bs : List Action) (s : Sys),
    run mem s (as ++ bs) = (run mem s as).bind fun s' => run mem s' bs
  | [], _, _ => rfl
  | a :: as, bs, s => by
    simp only [run, List.cons_append]
    cases step mem s a with
    | none => rfl
    | some s1 => exact run_append as bs s1

theorem allSteps_split {P : Sys → Action → Prop} : ∀ (as bs : List Action) {s s' : Sys},
    run mem s as = some s' → AllSteps P mem s (as ++ bs) → AllSteps P mem s as
  | [], _, _, _, _, _ => trivial
  | a :: as, bs, s, s', h, h2 => by
    simp only [run, Option.bind_eq_some_iff] at h
    obtain ⟨s1, h1, h⟩ := h
    simp only [AllSteps, List.cons_append, h1] at h2 ⊢
    exact ⟨h2.1, allSteps_split as bs h h2.2⟩

theorem OInv.run : ∀ (bs as : List Action) {s s' : Sys}, OInv mem as s → Raft.run mem {} as = some s →
    Raft.run mem s bs = some s' → OInv mem (as ++ bs) s'
  | [], as, s, s', O, _, h => by cases h; rw [List.append_nil]; exact O
  | b :: bs, as, s, s', O, hr, h => by
    simp only [Raft.run, Option.bind_eq_some_iff] at h
    obtain ⟨s1, h1, h2⟩ := h
    have := OInv.run bs (as ++ [b]) (O.step hr h1)
      (by rw [run_append, hr]; simp only [Option.bind_some, Raft.run, h1]) h2
    simpa using this

end

end Verif.Raft

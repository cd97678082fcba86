import Verif.Proofs.RaftOrder
import Verif.Proofs.LeaseApply
/-
All replicas apply prefixes of one sequence.
-/
namespace Verif.Raft
open Verif.Lease

section
variable {mem : List Nat} {s : Sys} {a : Action} {v : Nat} {n' : Node} {ms : List Msg}

theorem newlyApplied_mem {n n' : Node} {j : Nat} (h1 : n.applied < j) (h2 : j ≤ n'.applied)
    (h3 : n'.applied ≤ n'.log.length) : ∃ e, (j, e) ∈ newlyApplied n n' := by
  have hlt : j - 1 < n'.log.length := by omega
  refine ⟨n'.log[j - 1], ?_⟩
  unfold newlyApplied
  rw [List.mem_map]
  refine ⟨(n'.log[j - 1], j), ?_, rfl⟩
  rw [List.mem_iff_getElem]
  refine ⟨j - 1 - n.applied, by simp; omega, ?_⟩
  simp only [List.getElem_drop, List.getElem_zipIdx, List.getElem_take, Prod.mk.injEq]
  refine ⟨?_, by omega⟩
  congr 1; omega

structure HInv (mem : List Nat) (s : Sys) : Prop where
  f : FInv mem s
  node : ∀ w j, 1 ≤ j → j ≤ (s.nodes w).applied → ∃ e, (w, j, e) ∈ s.hist.applied
  below : ∀ w i e, (w, i, e) ∈ s.hist.applied → ∀ j, 1 ≤ j → j ≤ i → ∃ e', (w, j, e') ∈ s.hist.applied

theorem hinv_init (mem : List Nat) : HInv mem {} :=
  ⟨finv_init mem, by intro w j h1 h2; simp at h2; omega, by intro w i e h; simp at h⟩

theorem HInv.put (H : HInv mem s) (hc : Careful s a) (htr : Tr mem s a v n' ms) :
    HInv mem (s.put mem v n' ms) := by
  have F := H.f.put hc htr
  have hself : (s.put mem v n' ms).nodes v = n' := put_nodes_self
  have hlen : n'.applied ≤ n'.log.length := by
    have h1 := commit_le F.i3 v
    have h2 := (F.k.ac v).1
    rw [hself] at h1 h2; omega
  have hap : ∀ x, x ∈ (s.put mem v n' ms).hist.applied ↔
      x ∈ s.hist.applied ∨ ∃ p ∈ newlyApplied (s.nodes v) n', (v, p.1, p.2) = x := by
    intro x; simp [Sys.put, List.mem_append, List.mem_map]
  have hnew : ∀ j, 1 ≤ j → j ≤ n'.applied → ∃ e, (v, j, e) ∈ (s.put mem v n' ms).hist.applied := by
    intro j h1 h2
    by_cases hj : j ≤ (s.nodes v).applied
    · obtain ⟨e, he⟩ := H.node v j h1 hj
      exact ⟨e, (hap _).2 (Or.inl he)⟩
    · obtain ⟨e, he⟩ := newlyApplied_mem (n := s.nodes v) (by omega) h2 hlen
      exact ⟨e, (hap _).2 (Or.inr ⟨(j, e), he, rfl⟩)⟩
  refine ⟨F, fun w j h1 h2 => ?_, fun w i e h j h1 h2 => ?_⟩
  · by_cases hw : w = v
    · rw [hw, hself] at h2; rw [hw]; exact hnew j h1 h2
    · rw [put_nodes_ne hw] at h2
      obtain ⟨e, he⟩ := H.node w j h1 h2
      exact ⟨e, (hap _).2 (Or.inl he)⟩
  · rcases (hap _).1 h with h | ⟨⟨i', e'⟩, hp, he⟩
    · obtain ⟨e', he'⟩ := H.below w i e h j h1 h2
      exact ⟨e', (hap _).2 (Or.inl he')⟩
    · simp only [Prod.mk.injEq] at he
      obtain ⟨rfl, rfl, rfl⟩ := he
      exact hnew j h1 (by have := (mem_newlyApplied hp).2.1; omega)

theorem HInv.run : ∀ (as : List Action) {s s' : Sys}, HInv mem s → Raft.run mem s as = some s' →
    AllSteps FullSend mem s as → AllSteps OneRecord mem s as → AllSteps AckOfTerm mem s as → HInv mem s'
  | [], s, s', H, h, _, _, _ => by cases h; exact H
  | a :: as, s, s', H, h, h1, h2, h3 => by
    simp only [Raft.run, Option.bind_eq_some_iff] at h
    obtain ⟨s1, hs, h⟩ := h
    simp only [AllSteps, hs] at h1 h2 h3
    obtain ⟨v, n', ms, htr, rfl⟩ := step_tr hs
    exact HInv.run as (H.put (careful_step h1.1 h2.1 h3.1) htr) h h1.2 h2.2 h3.2

theorem applied_run : ∀ (as : List Action) {s s' : Sys}, Raft.run mem s as = some s' →
    ∀ x ∈ s.hist.applied, x ∈ s'.hist.applied
  | [], s, s', h, x, hx => by cases h; exact hx
  | a :: as, s, s', h, x, hx => by
    simp only [Raft.run, Option.bind_eq_some_iff] at h
    obtain ⟨s1, hs, h⟩ := h
    obtain ⟨v, n', ms, htr, rfl⟩ := step_tr hs
    exact applied_run as h x (List.mem_append_left _ hx)

/-- An element with the largest index. -/
theorem exists_max : ∀ (l : List (Nat × Nat × Entry)), l ≠ [] → ∃ x ∈ l, ∀ y ∈ l, y.2.1 ≤ x.2.1
  | [], h => (h rfl).elim
  | [x], _ => ⟨x, by simp, by simp⟩
  | x :: y :: l, _ => by
    obtain ⟨z, hz, hm⟩ := exists_max (y :: l) (by simp)
    by_cases h : z.2.1 ≤ x.2.1
    · refine ⟨x, by simp, fun w hw => ?_⟩
      rcases List.mem_cons.1 hw with rfl | hw
      · exact Nat.le_refl _
      · exact Nat.le_trans (hm w hw) h
    · refine ⟨z, List.mem_cons_of_mem _ hz, fun w hw => ?_⟩
      rcases List.mem_cons.1 hw with rfl | hw
      · omega
      · exact hm w hw

theorem one_history (H : HInv mem s) : ∃ S : List Entry,
    (∀ i (hi : i < S.length), ∃ w, (w, i + 1, S[i]) ∈ s.hist.applied) ∧
    (∀ w i e, (w, i, e) ∈ s.hist.applied → 1 ≤ i ∧ S[i - 1]? = some e) ∧
    (∀ w, (s.nodes w).applied ≤ S.length ∧
      (s.nodes w).log.take (s.nodes w).applied = S.take (s.nodes w).applied) := by
  have hz : s.hist.applied = [] ∨ s.hist.applied ≠ [] := by
    cases s.hist.applied <;> simp
  rcases hz with hz | hz
  · refine ⟨[], by simp, by simp [hz], fun w => ?_⟩
    have : (s.nodes w).applied = 0 := by
      refine Nat.eq_zero_of_not_pos fun hp => ?_
      obtain ⟨e, he⟩ := H.node w 1 (Nat.le_refl _) hp
      rw [hz] at he; cases he
    rw [this]; simp
  · obtain ⟨⟨w0, M, e0⟩, hx, hmax⟩ := exists_max _ hz
    obtain ⟨t, i0, c, hM1, hM, _⟩ := H.f.i3.appl w0 M e0 hx
    have hlt : i0 ≤ (s.hist.lead t).length := c.1.2.1
    have hSlen : ((s.hist.lead t).take M).length = M := by simp; omega
    have hS : ∀ w i e, (w, i, e) ∈ s.hist.applied → 1 ≤ i ∧ ((s.hist.lead t).take M)[i - 1]? = some e := by
      intro w i e h
      have hi := hmax _ h
      obtain ⟨t', i0', c', h1, h2, h3⟩ := H.f.i3.appl w i e h
      refine ⟨h1, ?_⟩
      dsimp only at hi
      rw [List.getElem?_take, if_pos (by omega)]
      have hl : i - 1 < (s.hist.lead t).length := by omega
      rw [List.getElem?_eq_getElem hl,
        committed_agree H.f.i2 c c' (idx := i - 1) (by omega) (by omega) (List.getElem?_eq_getElem hl) h3]
    refine ⟨(s.hist.lead t).take M, fun i hi => ?_, hS, fun w => ?_⟩
    · rw [hSlen] at hi
      obtain ⟨e', he'⟩ := H.below w0 M e0 hx (i + 1) (by omega) (by omega)
      have := (hS _ _ _ he').2
      rw [show i + 1 - 1 = i by omega] at this
      rw [(List.getElem?_eq_some_iff.1 this).2]
      exact ⟨w0, he'⟩
    · have hk : (s.nodes w).applied ≤ M := by
        by_cases hp : 1 ≤ (s.nodes w).applied
        · obtain ⟨e, he⟩ := H.node w _ hp (Nat.le_refl _)
          exact hmax _ he
        · omega
      refine ⟨by omega, ?_⟩
      have hac := (H.f.k.ac w).1
      have hcl := commit_le H.f.i3 w
      rcases H.f.i3.com w with h0 | ⟨t', i', c', _, h3, h4⟩
      · rw [show (s.nodes w).applied = 0 by omega]; simp
      · apply List.ext_getElem?
        intro j
        rw [List.getElem?_take, List.getElem?_take]
        split
        · rename_i hj
          have hl' : j < (s.hist.lead t').length := by have := c'.1.2.1; omega
          have hl : j < (s.hist.lead t).length := by omega
          have e1 : (s.nodes w).log[j]? = some (s.hist.lead t')[j] := by
            refine getElem?_of_prefix h4 ?_
            rw [List.getElem?_take, if_pos (by omega), List.getElem?_eq_getElem hl']
          rw [e1, List.getElem?_take, if_pos (by omega), List.getElem?_eq_getElem hl]
          exact congrArg some (committed_agree H.f.i2 c' c (idx := j) (by omega) (by omega)
            (List.getElem?_eq_getElem hl') (List.getElem?_eq_getElem hl))
        · rfl

end

/-- The Raft steps of a timed run. -/
def erase : List (Nat × Lease.Act) → List Action
  | [] => []
  | (_, .raft a) :: as => a :: erase as
  | (_, .send v beg cnt _ _) :: as => .send v beg cnt :: erase as
  | _ :: as => erase as

theorem run_erase {c : Lease.Cfg} : ∀ (as : List (Nat × Lease.Act)) {ts ts' : Lease.TSys},
    Lease.trun c ts as = some ts' → run c.mem ts.sys (erase as) = some ts'.sys ∧
      ∀ P : Sys → Action → Prop, Lease.AllT (Lease.OnRaft P) c ts as → AllSteps P c.mem ts.sys (erase as)
  | [], ts, ts', h => by cases h; exact ⟨rfl, fun _ _ => trivial⟩
  | (t, a) :: as, ts, ts', h => by
    simp only [Lease.trun] at h
    rw [Option.bind_eq_some_iff] at h
    obtain ⟨ts1, hs, h⟩ := h
    obtain ⟨i1, i2⟩ := run_erase as h
    cases a with
    | raft a =>
      have hstep : step c.mem ts.sys a = some ts1.sys := by
        simp only [Lease.tstep] at hs
        split at hs
        · rw [Option.map_eq_some_iff] at hs
          obtain ⟨s', h1, rfl⟩ := hs
          exact h1
        · cases hs
      refine ⟨by simp only [erase, run, hstep, Option.bind_some, i1], fun P hP => ?_⟩
      simp only [Lease.AllT, hs] at hP
      simp only [erase, AllSteps, hstep]
      exact ⟨hP.1, i2 P hP.2⟩
    | send v beg cnt ps lag =>
      have hstep : step c.mem ts.sys (.send v beg cnt) = some ts1.sys := by
        simp only [Lease.tstep] at hs
        split at hs
        · rw [Option.map_eq_some_iff] at hs
          obtain ⟨s', h1, rfl⟩ := hs
          exact h1
        · cases hs
      refine ⟨by simp only [erase, run, hstep, Option.bind_some, i1], fun P hP => ?_⟩
      simp only [Lease.AllT, hs] at hP
      simp only [erase, AllSteps, hstep]
      exact ⟨hP.1, i2 P hP.2⟩
    | preVoteWon v =>
      have hsys : ts1.sys = ts.sys := by
        simp only [Lease.tstep] at hs
        split at hs
        · cases hs; rfl
        · cases hs
      rw [hsys] at i1 i2
      exact ⟨i1, fun P hP => i2 P (by simp only [Lease.AllT, hs] at hP; exact hP.2)⟩
    | elapse v =>
      have hsys : ts1.sys = ts.sys := by
        simp only [Lease.tstep] at hs
        split at hs
        · cases hs; rfl
        · cases hs
      rw [hsys] at i1 i2
      exact ⟨i1, fun P hP => i2 P (by simp only [Lease.AllT, hs] at hP; exact hP.2)⟩
    | shadow v p =>
      have hsys : ts1.sys = ts.sys := by
        simp only [Lease.tstep] at hs
        split at hs
        · cases hs; rfl
        · cases hs
      rw [hsys] at i1 i2
      exact ⟨i1, fun P hP => i2 P (by simp only [Lease.AllT, hs] at hP; exact hP.2)⟩

end Verif.Raft

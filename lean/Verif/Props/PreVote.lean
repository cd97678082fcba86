import Verif.Proofs.PreVoteStuck
import Verif.Proofs.RaftProgress3
/- C126, C127: what a majority can do by itself, and what pre-votes are for. -/
namespace Verif.PreVote

open Raft (Node Sys PeerID ReqVote Vote Msg Entry)

/-- Node 3 is elected in term 1 and sends its first entry to 2 alone; it restarts, is to be elected again with the help of 1,
and goes down. -/
def crossing : List PAction :=
  [.timer 3 false false false, .deliver 2 0 false true false, .deliver 3 1 false true false, .elect 3 0,
   .raft (.deliver 1 0 0 false false false), .raft (.deliver 2 0 0 false false false),
   .raft (.deliver 3 1 7 false false false), .raft (.send 3 1 1), .raft (.deliver 2 3 0 false false false),
   .raft (.crash 3), .timer 3 false false false, .deliver 1 2 false true false, .deliver 3 3 false true false, .elect 3 0,
   .raft (.deliver 1 5 0 false false false)]

def crossed : PSys := (run [1, 2, 3] {} crossing).getD {}

theorem crossing_runs : run [1, 2, 3] {} crossing = some crossed := by
  have h : (run [1, 2, 3] {} crossing).isSome = true := by decide +kernel
  unfold crossed
  cases e : run [1, 2, 3] {} crossing with
  | none => rw [e] at h; cases h
  | some s => rfl

/-! ## C126 -/

/-- A majority one of whose members is behind none of the others - in term, in the version of the configuration, in its
log - can elect that member and have it commit any commands. Partial: only with such a member, see below. -/
theorem C126_progress_partial (mem Q : List Nat) (as : List PAction) (s : PSys) (v : Nat) (hr : run mem {} as = some s)
    (hQ : Majority mem Q) (hb : Best Q s.base v) (cmds : List Nat) : CanCommit mem Q s v cmds :=
  best_commits hr hQ hb cmds

/-- In particular if all of them are in the same term and have the same version of the configuration. -/
theorem C126_same_term_progress_partial (mem Q : List Nat) (as : List PAction) (s : PSys) (hr : run mem {} as = some s)
    (hQ : Majority mem Q)
    (ht : ∀ u ∈ Q, ∀ v ∈ Q, (s.base.nodes u).term = (s.base.nodes v).term ∧ (s.base.nodes u).mcTerm = (s.base.nodes v).mcTerm) :
    Progress mem Q s := by
  intro cmds
  obtain ⟨v, hv, hn⟩ := exists_newest (fun q => (s.base.nodes q).log) Q (by
    intro h; have := hQ.2.2; rw [h] at this; simp at this)
  exact ⟨v, hv, best_commits hr hQ ⟨hv, fun q hq => Nat.le_of_eq (ht q hq v hv).1, fun q hq => Nat.le_of_eq (ht q hq v hv).2, hn⟩ cmds⟩

/-- After the first nine steps of the run above 2 is such a member of the majority 1 and 2. -/
example : Majority [1, 2, 3] [1, 2] ∧ Best [1, 2] ((run [1, 2, 3] {} (crossing.take 9)).getD {}).base 2 ∧
    (((run [1, 2, 3] {} (crossing.take 9)).getD {}).base.nodes 2).log = [⟨1, 7⟩] := by
  refine ⟨by unfold Majority; decide, ⟨by decide, by decide +kernel, by decide +kernel, ?_⟩, by decide +kernel⟩
  unfold Raft.AsUpToDate
  decide +kernel

theorem stuck_of_crossed {mem : List Nat} {a b : Nat} {s : PSys} (h : Crossed s a b) (ha : a ∈ mem) (hb : b ∈ mem) :
    Stuck mem [a, b] (fun v => if v = a then b else a) s := by
  have h2 : [a, b] ⊆ mem := by
    intro x hx
    rcases List.mem_cons.1 hx with rfl | hx
    · exact ha
    · rw [List.mem_singleton.1 hx]; exact hb
  have hne := h.ne
  have hl := (List.subperm_of_subset (l₁ := [a, b]) (by simp [hne]) h2).length_le
  have two : ∀ v ∈ [a, b], v = a ∨ v = b := fun v hv => by simpa using hv
  refine ⟨by simp [hne], ?_, h2, fun v hv => ?_, fun v hv => h.role v (two v hv), fun v hv => h.saved v (two v hv),
    fun v hv => ?_, fun m hm hs v hv => ?_, fun m hm hs => ?_, fun m hm hs => ?_, fun v hv => ?_⟩
  · simp only [List.length_cons, List.length_nil] at hl ⊢; omega
  · rcases two v hv with rfl | rfl
    · simp [hne.symm]
    · simp [hne.symm, hne]
  · rcases two v hv with rfl | rfl
    · refine .inr (.inr ⟨fun e => ?_, ?_⟩)
      · rw [if_pos rfl] at e
        refine h.log ?_
        unfold Raft.AsUpToDate
        rw [e]
        by_cases h0 : Raft.lastTerm (s.base.nodes v).log = 0
        · exact .inr ⟨by rw [h0]; rfl, by simp⟩
        · exact .inl (by show 0 < _; omega)
      · rw [if_pos rfl]; exact h.log
    · refine .inl ?_
      rw [if_neg hne.symm]
      exact h.term
  · have := h.msgs m hm (two _ hs)
    rcases two v hv with rfl | rfl
    · exact this.1
    · exact this.2
  · have := h.reqs m hm
    rcases two _ hs with e | e
    · exact absurd e this.1
    · exact absurd e this.2
  · have := h.answers m hm
    rcases two _ hs with e | e
    · exact absurd e this.1
    · exact absurd e this.2
  · rcases two v hv with rfl | rfl
    · rw [h.pv.1]; simp
    · rw [h.pv.2]; simp

/-- Two members, one with the higher term and one with the newer log, never have a leader again, whatever the two do: the
one is refused for its log, the other for its term, and pre-votes do not carry terms over. -/
theorem C126_no_leader_ever_counterexample (mem : List Nat) (a b : Nat) (s s' : PSys) (as : List PAction)
    (h : Crossed s a b) (ha : a ∈ mem) (hb : b ∈ mem) (hr : run mem s as = some s') (hw : AllWithin mem [a, b] s as) :
    (s'.base.nodes a).role = .follower ∧ (s'.base.nodes b).role = .follower := by
  have st := stuck_run as (stuck_of_crossed h ha hb) hw hr
  exact ⟨st.role a (by simp), st.role b (by simp)⟩

theorem crossed_crossed : Crossed crossed 1 2 := by
  have hm : crossed.base.msgs.all (fun m => decide (m.src.1 = 1 ∨ m.src.1 = 2 → m.toward 1 = false ∧ m.toward 2 = false)) = true := by
    decide +kernel
  have hp : crossed.pmsgs.all (fun p => match p with
      | .req m => decide (m.src.1 ≠ 1 ∧ m.src.1 ≠ 2)
      | .ans m => decide (m.cand.1 ≠ 1 ∧ m.cand.1 ≠ 2)) = true := by decide +kernel
  rw [List.all_eq_true] at hm hp
  refine ⟨by decide, ?_, ?_, by decide +kernel, ?_, fun m h => of_decide_eq_true (hm m h), fun m h => ?_, fun m h => ?_, ?_⟩
  · rintro v (rfl | rfl) <;> decide +kernel
  · rintro v (rfl | rfl) <;> decide +kernel
  · unfold Raft.AsUpToDate; decide +kernel
  · simpa using hp _ h
  · simpa using hp _ h
  · decide +kernel

/-- C126 does not hold: three members, of which two are left. They can reach each other, for ever, and will never have a
leader. -/
theorem C126_progress_counterexample : run [1, 2, 3] {} crossing = some crossed ∧ Majority [1, 2, 3] [1, 2] ∧
    ¬ Progress [1, 2, 3] [1, 2] crossed := by
  refine ⟨crossing_runs, by unfold Majority; decide, fun h => ?_⟩
  obtain ⟨v, hv, as, s', h1, h2, h3, _⟩ := h []
  have := C126_no_leader_ever_counterexample [1, 2, 3] 1 2 crossed s' as crossed_crossed (by decide) (by decide) h1 h2
  rcases List.mem_cons.1 hv with rfl | hv
  · rw [this.1] at h3; cases h3
  · rw [List.mem_singleton.1 hv, this.2] at h3; cases h3

/-- It is the pre-votes: where a node may stand for election whenever it has heard no leader for a while, as in Raft itself,
every majority can go on from every reachable state. -/
theorem C126_without_prevotes_partial (mem Q : List Nat) (as : List Raft.Action) (s : Sys) (hr : Raft.run mem {} as = some s)
    (hQ : Majority mem Q) (cmds : List Nat) : ∃ v ∈ Q, Raft.CanCommit mem Q s v cmds :=
  Raft.free_progress (inv0_run as Raft.inv0_init hr) (Raft.done_run as (fun _ => ⟨Nat.le_refl _, Nat.le_refl _⟩) hr) hQ cmds

/-- The state of `crossing` is one of these. -/
example : ∃ v ∈ [1, 2], Raft.CanCommit [1, 2, 3] [1, 2] crossed.base v [8, 9] := by
  obtain ⟨bs, h⟩ := base_run crossing crossing_runs
  exact C126_without_prevotes_partial [1, 2, 3] [1, 2] bs _ h (by unfold Majority; decide) _

/-! ## C127 -/

/-- A node stands for election only if, of a majority of the members that includes it, all the others have answered this
very process that they would vote for it in the coming term. -/
theorem C127_consent (mem : List Nat) (as : List PAction) (s s' : PSys) (v noop : Nat) (hr : run mem {} as = some s)
    (hs : step mem s (.elect v noop) = some s') :
    ∃ Y, Majority mem Y ∧ v ∈ Y ∧ ∀ u ∈ Y, u ≠ v → ∃ m, PMsg.ans m ∈ s.pmsgs ∧ m.src.1 = u ∧
      m.cand = (v, (s.base.nodes v).inc) ∧ m.granted = true ∧ m.term = (s.base.nodes v).term + 1 := by
  have c := allCons_run as (fun v => cons_empty _ _ _) hr v
  simp only [step] at hs
  split at hs
  · rename_i hc
    obtain ⟨_, h1, h2, h3⟩ := hc
    refine ⟨(s.pv v).yes, ⟨c.nodup, c.sub, c.enough h2⟩, c.self (.inr h2), fun u hu hne => ?_⟩
    obtain ⟨m, g1, g2, g3, g4, g5⟩ := c.from_ u hu hne
    rw [if_pos h1, h3] at g5
    exact ⟨m, g1, g2, g3, g4, g5⟩
  · cases hs

/-- Without a message nothing else raises its term (in a cluster of more than one). -/
theorem C127_only_way_up (mem : List Nat) (as : List PAction) (s s' : PSys) (a : PAction) (v : Nat) (h2 : 2 ≤ mem.length)
    (hr : run mem {} as = some s) (hn : NotHeard v a) (hs : step mem s a = some s')
    (hlt : (s.base.nodes v).term < (s'.base.nodes v).term) :
    (∃ noop, a = .elect v noop) ∧ (s'.base.nodes v).term = (s.base.nodes v).term + 1 := by
  obtain ⟨cs, hc⟩ := base_run as hr
  have hsv := (Raft.inv1_run cs (Raft.inv1_init mem) hc).savedTerm v
  rcases notHeard_step h2 hn hs with ⟨h1, _⟩ | ⟨h1, _⟩ | ⟨_, h1, _, _, h3⟩
  · omega
  · omega
  · exact ⟨h3, h1⟩

/-- The answer says what it should: the voter is no leader and knows of none, has not reached that term, and the candidate's
log and configuration are as new as its own. -/
theorem C127_answer (mem : List Nat) (s s' : PSys) (v k : Nat) (st al nf : Bool)
    (hs : step mem s (.deliver v k st al nf) = some s') (m : Vote) (hm : PMsg.ans m ∈ s'.pmsgs) (hnew : PMsg.ans m ∉ s.pmsgs) :
    s'.base = s.base ∧ ∃ q, PMsg.req q ∈ s.pmsgs ∧ m.src = (v, (s.base.nodes v).inc) ∧ m.cand = q.src ∧ m.term = q.term ∧
      (m.granted = true ↔ (s.base.nodes v).role ≠ .leader ∧ st = false ∧ (s.base.nodes v).term < q.term ∧
        (s.base.nodes v).mcTerm ≤ q.mcTerm ∧
        ((s.base.nodes v).log = [] ∨ Raft.lastTerm (s.base.nodes v).log < q.lastTerm ∨
          (Raft.lastTerm (s.base.nodes v).log = q.lastTerm ∧ (s.base.nodes v).log.length ≤ q.lastIdx))) := by
  simp only [step] at hs
  split at hs
  · rename_i hv
    split at hs
    · rename_i q hq
      split at hs
      · cases hs
        refine ⟨rfl, q, List.mem_of_getElem? hq, ?_⟩
        rcases List.mem_append.1 hm with h | h
        · exact absurd h hnew
        · cases List.mem_singleton.1 h
          refine ⟨rfl, rfl, rfl, ?_⟩
          simp only [Raft.handleRequestPreVote, Raft.logUpToDateAsOurs]
          by_cases h0 : (s.base.nodes v).role = .leader
          · simp [h0]
          cases st
          · by_cases h1 : q.term ≤ (s.base.nodes v).term
            · simp [h0, h1]; omega
            · by_cases h3 : q.mcTerm < (s.base.nodes v).mcTerm
              · simp [h0, h1, h3]; omega
              · by_cases h4 : (s.base.nodes v).log = []
                · simp [h0, h1, h3, h4]; omega
                · have h5 : ¬ (s.base.nodes v).log.length < 1 := by
                    have := List.length_pos_iff.2 h4; omega
                  have h6 : ¬ q.term < (s.base.nodes v).term := by omega
                  simp only [h0, h1, h3, h5, h6, if_false, false_or, Bool.false_eq_true, ne_eq, not_false_eq_true, true_and, h4]
                  split
                  · rename_i h7; simp; omega
                  · split
                    · simp; omega
                    · simp; omega
          · simp
      · cases hs
    · split at hs
      · cases hs; exact absurd hm hnew
      · cases hs
    · cases hs
  · cases hs

/-- A node of a larger cluster that hears nothing raises its term at most once more, however long. -/
theorem C127_cut_off (mem : List Nat) (as bs : List PAction) (s s' : PSys) (v : Nat) (h2 : 2 ≤ mem.length)
    (hr : run mem {} as = some s) (hb : run mem s bs = some s') (hn : ∀ a ∈ bs, NotHeard v a) :
    (s'.base.nodes v).term ≤ (s.base.nodes v).term + 1 ∧
      ((s.pv v).eterm = 0 → (s'.base.nodes v).term ≤ (s.base.nodes v).term) := by
  obtain ⟨cs, hc⟩ := base_run as hr
  have hsv := (Raft.inv1_run cs (Raft.inv1_init mem) hc).savedTerm v
  refine ⟨(alone_run (T := (s.base.nodes v).term) h2 bs hn ⟨by omega, by omega, fun _ => Nat.le_refl _⟩ hb).term, fun h => ?_⟩
  exact (still_run (T := (s.base.nodes v).term) h2 bs hn ⟨Nat.le_refl _, hsv, h⟩ hb).term

/-- With pre-votes in front the cluster does nothing that it would not do without: C18 to C25, C87 and C88 apply. -/
theorem C127_still_raft (mem : List Nat) (as : List PAction) (s s' : PSys) (hr : run mem s as = some s') :
    ∃ bs, Raft.run mem s.base bs = some s'.base := base_run as hr

/-- Before the fourteenth step of the run above node 3 has been given the pre-vote of 1. -/
example : ∃ s s', run [1, 2, 3] {} (crossing.take 13) = some s ∧ step [1, 2, 3] s (.elect 3 0) = some s' ∧
    (s.pv 3).yes = [3, 1] ∧ (s.base.nodes 3).term = 1 ∧ (s'.base.nodes 3).term = 2 := by
  have e : run [1, 2, 3] {} (crossing.take 13) = some ((run [1, 2, 3] {} (crossing.take 13)).getD {}) := by
    have h : (run [1, 2, 3] {} (crossing.take 13)).isSome = true := by decide +kernel
    cases h' : run [1, 2, 3] {} (crossing.take 13) with
    | none => rw [h'] at h; cases h
    | some s => rfl
  refine ⟨_, (step [1, 2, 3] ((run [1, 2, 3] {} (crossing.take 13)).getD {}) (.elect 3 0)).getD {}, e, ?_, by decide +kernel,
    by decide +kernel, by decide +kernel⟩
  have h : (step [1, 2, 3] ((run [1, 2, 3] {} (crossing.take 13)).getD {}) (.elect 3 0)).isSome = true := by decide +kernel
  cases h' : step [1, 2, 3] ((run [1, 2, 3] {} (crossing.take 13)).getD {}) (.elect 3 0) with
  | none => rw [h'] at h; cases h
  | some s => rfl

/-- The twelfth step is 1 answering. -/
example : ∃ m, ((run [1, 2, 3] {} (crossing.take 12)).map (·.pmsgs)) = some (((run [1, 2, 3] {} (crossing.take 11)).getD {}).pmsgs ++ [.ans m]) ∧
    m.granted = true ∧ m.src = (1, 0) ∧ m.cand = (3, 1) ∧ m.term = 2 :=
  ⟨⟨(1, 0), 1, (3, 1), 2, true, 0⟩, by decide +kernel, rfl, rfl, rfl, rfl⟩

/-- Cut off, it asks three times over in vain. -/
example : ((run [1, 2, 3] {} (crossing.take 12 ++ [.timer 3 false false false, .timer 3 false false false,
    .timer 3 false false false])).map fun s => (s.base.nodes 3).term) = some 1 := by decide +kernel

end Verif.PreVote

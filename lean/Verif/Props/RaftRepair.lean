import Verif.Proofs.RaftRepair
import Verif.Props.Raft
/-
C24. A diverged follower is repaired: true when the follower's log is a beginning of the
leader's or differs from its first entry on, false when they part later.
-/
namespace Verif.Raft

/-- **C24.** Missing: followers whose log parts from the leader's after a common beginning, and
followers holding more than the leader; see the counterexamples below.

A leader and a follower whose term is not ahead, otherwise in any state. The leader sends a
heartbeat and answers the follower's acknowledgements, with batches cut anywhere. If the
follower's log is a beginning of the leader's, or already the first entries have different
terms, the follower ends with the leader's log after at most one round per entry and two more. -/
theorem C24_follower_repaired_partial (me you : Nat) (n f : Node) (lims : List Nat)
    (hr : n.role = .leader) (h1 : 1 ≤ n.term) (hft : f.term ≤ n.term)
    (hlen : n.log.length < lims.length)
    (h : (∃ k, f.log = n.log.take k) ∨
      (∃ a b, n.log[0]? = some a ∧ f.log[0]? = some b ∧ a.term ≠ b.term)) :
    (exchange me you n f (heartbeat me n) lims).log = n.log := by
  refine exchange_repairs hr h1 hft lims hlen ?_
  rcases h with ⟨k, hk⟩ | ⟨a, b, ha, hb, hab⟩
  · exact Or.inl (hk ▸ List.take_prefix _ _)
  · right
    cases hL : n.log with
    | nil => rw [hL] at ha; simp at ha
    | cons x L =>
      cases hF : f.log with
      | nil => rw [hF] at hb; simp at hb
      | cons y F =>
        rw [hL] at ha; rw [hF] at hb
        simp only [List.getElem?_cons_zero, Option.some.injEq] at ha hb
        subst ha hb
        refine ⟨by simp, ?_⟩
        simp [terms, commonPrefix, hab]

/-- In any execution, the same, told from the follower's last entry: if the leader has an entry
of the same index and term, or the follower has no entry, the follower is repaired. -/
theorem C24_follower_behind_repaired_partial (mem : List Nat) (as : List Action) (s : Sys) (v u : Nat)
    (lims : List Nat) (hrun : run mem {} as = some s) (hr : (s.nodes v).role = .leader)
    (h1 : 1 ≤ (s.nodes v).term) (hft : (s.nodes u).term ≤ (s.nodes v).term)
    (hlen : (s.nodes v).log.length < lims.length)
    (h : ∀ b, (s.nodes u).log.getLast? = some b →
      ∃ a, (s.nodes v).log[(s.nodes u).log.length - 1]? = some a ∧ a.term = b.term) :
    (exchange v u (s.nodes v) (s.nodes u) (heartbeat v (s.nodes v)) lims).log = (s.nodes v).log := by
  refine C24_follower_repaired_partial v u _ _ lims hr h1 hft hlen (Or.inl ?_)
  cases hb : (s.nodes u).log.getLast? with
  | none => exact ⟨0, by rw [List.getLast?_eq_none_iff.1 hb]; simp⟩
  | some b =>
    obtain ⟨a, ha, hab⟩ := h b hb
    have hne : (s.nodes u).log ≠ [] := by intro hx; rw [hx] at hb; cases hb
    have hpos := List.length_pos_iff.2 hne
    rw [List.getLast?_eq_getElem?] at hb
    have := C19_log_matching mem as [] s s v u _ a b hrun rfl ha hb hab
    refine ⟨(s.nodes u).log.length, ?_⟩
    rw [show (s.nodes u).log.length - 1 + 1 = (s.nodes u).log.length by omega] at this
    rw [this, List.take_length]

theorem commonPrefix_at : ∀ (a b : List Nat) (j : Nat), a.take j = b.take j → j < a.length → j < b.length →
    a[j]? ≠ b[j]? → commonPrefix a b = j
  | [], _, _, _, h, _, _ => by simp at h
  | _ :: _, [], _, _, _, h, _ => by simp at h
  | x :: a, y :: b, 0, _, _, _, h => by
    unfold commonPrefix
    rw [if_neg (by simpa using h)]
  | x :: a, y :: b, j + 1, h, h1, h2, h3 => by
    simp only [List.take_succ_cons, List.cons.injEq] at h
    unfold commonPrefix
    rw [if_pos h.1, commonPrefix_at a b j h.2 (by simpa using h1) (by simpa using h2) (by simpa using h3)]

/-- Where two logs part: same terms before `j`, different terms at `j` (0-based). -/
def PartAt (L F : List Entry) (j : Nat) : Prop :=
  (terms L).take j = (terms F).take j ∧ ∃ a b, L[j]? = some a ∧ F[j]? = some b ∧ a.term ≠ b.term

theorem PartAt.common {L F : List Entry} {j : Nat} (h : PartAt L F j) :
    commonPrefix (terms L) (terms F) = j ∧ j < L.length ∧ j < F.length := by
  obtain ⟨h1, a, b, ha, hb, hab⟩ := h
  have hL := (List.getElem?_eq_some_iff.1 ha).1
  have hF := (List.getElem?_eq_some_iff.1 hb).1
  refine ⟨commonPrefix_at _ _ _ h1 (by rwa [terms_length]) (by rwa [terms_length]) ?_, hL, hF⟩
  simp [terms, ha, hb, hab]

/-- **C24 fails** whenever a follower's log parts from the leader's after at least one common
entry: however long the leader goes on, the follower rejects every batch, does not ask for a
snapshot, and keeps its log. -/
theorem C24_conflict_counterexample (me you : Nat) (n f : Node) (lims : List Nat) (j : Nat)
    (hr : n.role = .leader) (h1 : 1 ≤ n.term) (hft : f.term ≤ n.term) (hj : 1 ≤ j)
    (hp : PartAt n.log f.log j) :
    (exchange me you n f (heartbeat me n) lims).log = f.log ∧ f.log ≠ n.log := by
  obtain ⟨hc, hL, hF⟩ := hp.common
  refine ⟨?_, fun he => ?_⟩
  · cases lims with
    | nil =>
      obtain ⟨a, _, _, _, _, hout⟩ := handle_outcome (you := you) (f := f) (m := heartbeat me n) h1 hft
      rw [outcome_heartbeat] at hout
      exact congrArg Prod.fst hout
    | cons lim lims =>
      obtain ⟨f', e1, e2, e3⟩ := exchange_heartbeat (me := me) (you := you) hr h1 hft (by omega) lim lims
      rw [e3, hc, exchange_stuck hr h1 hj lims f' _ (by omega) (by omega) (by rw [e2]; exact hc) hL
        (by rw [e2]; exact hF), e2]
  · obtain ⟨_, a, b, ha, hb, hab⟩ := hp
    rw [he, ha] at hb
    exact hab (congrArg Entry.term (Option.some.inj hb))

/-- **C24 fails** too for a follower that holds more than the leader: it keeps the surplus. -/
theorem C24_surplus_counterexample (me you : Nat) (n f : Node) (lims : List Nat)
    (h1 : 1 ≤ n.term) (hft : f.term ≤ n.term) (x : Entry) (xs : List Entry) (hf : f.log = n.log ++ x :: xs) :
    (exchange me you n f (heartbeat me n) lims).log = f.log ∧ f.log ≠ n.log := by
  refine ⟨?_, by rw [hf]; intro he; have := congrArg List.length he; simp at this⟩
  have hc : commonPrefix (terms n.log) (terms f.log) = n.log.length := by
    have h2 := commonPrefix_le_left (terms n.log) (terms f.log)
    have h3 := prefix_le_commonPrefix (terms n.log) (terms n.log) (terms f.log) (List.prefix_refl _)
      ⟨terms (x :: xs), by rw [hf]; simp [terms]⟩
    rw [terms_length] at h2 h3
    omega
  obtain ⟨a, ha, hat, hal, hnt, hout⟩ := handle_outcome (you := you) (f := f) (m := heartbeat me n) h1 hft
  rw [outcome_heartbeat, hc] at hout
  have ol := congrArg Prod.fst hout
  have orj : a.rejected = _ := congrArg (fun x => x.2.1) hout
  have olc : a.lcp = _ := congrArg (fun x => x.2.2.2) hout
  dsimp only at ol orj olc
  cases lims with
  | nil => exact ol
  | cons lim lims =>
    rw [exchange, ha]
    dsimp only [Option.bind_some]
    rw [answer_none (by rw [orj]; simp) (by omega)]
    exact ol

/-- What helps a follower stuck like that: an entry the leader appends later. Its broadcast makes
the follower ask for a snapshot, as soon as it does not directly follow the common beginning. -/
theorem C24_later_entry_asks_for_snapshot (mem : List Nat) (as : List Action) (s : Sys) (v u j : Nat)
    (hrun : run mem {} as = some s) (h1 : 1 ≤ (s.nodes v).term)
    (hft : (s.nodes u).term ≤ (s.nodes v).term) (hp : PartAt (s.nodes v).log (s.nodes u).log j)
    (hj : j + 1 < (s.nodes v).log.length) :
    ∃ a, (handleAppendEntries u (s.nodes u) (mkAE v (s.nodes v) (s.nodes v).log.length 1)).2 = some a ∧
      a.rejected = true ∧ a.needSnap = true := by
  obtain ⟨hc, hL, hF⟩ := hp.common
  generalize hm : mkAE v (s.nodes v) (s.nodes v).log.length 1 = m
  obtain ⟨a, ha, hat, hal, hnt, hout⟩ := handle_outcome (you := u) (f := s.nodes u) (m := m)
    (by rw [← hm]; exact h1) (by rw [← hm]; exact hft)
  have hterms : m.terms = terms (s.nodes v).log := by rw [← hm]; rfl
  have hprev : m.prev = (s.nodes v).log.length - 1 := by rw [← hm]; simp [mkAE]
  have hpt : m.prevTerm = termAt (s.nodes v).log m.prev := by rw [← hm]; rfl
  have hent : m.entries ≠ [] := by
    rw [← hm]; intro hx; have := congrArg List.length hx; simp [mkAE] at this; omega
  have hmis : logsAreMismatched (s.nodes u).log m = true := by
    unfold logsAreMismatched
    rw [if_neg hent, if_neg (by omega)]
    split
    · rfl
    rename_i hlen
    rw [if_pos]
    rw [hpt]
    intro he
    have hv : (s.nodes v).log.length - 1 - 1 < (s.nodes v).log.length := by omega
    have hu : (s.nodes v).log.length - 1 - 1 < (s.nodes u).log.length := by omega
    have := C19_log_matching mem as [] s s v u ((s.nodes v).log.length - 1 - 1) _ _ hrun rfl
      (List.getElem?_eq_getElem hv) (List.getElem?_eq_getElem hu) (by
        rw [hprev] at he
        have e1 := (termAt_eq (L := (s.nodes v).log) (i := (s.nodes v).log.length - 1)
          (t := termAt (s.nodes v).log ((s.nodes v).log.length - 1)) (by omega) (by omega)).1 rfl
        have e2 := (termAt_eq (L := (s.nodes u).log) (i := (s.nodes v).log.length - 1)
          (t := termAt (s.nodes u).log ((s.nodes v).log.length - 1)) (by omega) (by omega)).1 rfl
        rw [e1, e2, he])
    obtain ⟨_, x, y, hx, hy, hxy⟩ := hp
    have h2 := congrArg (fun l => l[j]?) this
    simp only [List.getElem?_take] at h2
    rw [if_pos (by omega), if_pos (by omega), hx, hy] at h2
    exact hxy (congrArg Entry.term (Option.some.inj h2))
  unfold outcome at hout
  dsimp only at hout
  rw [hterms, hc, if_neg (by rw [terms_length]; omega), if_pos hmis, hprev] at hout
  refine ⟨a, ha, congrArg (fun x => x.2.1) hout, ?_⟩
  have := congrArg (fun x => x.2.2.1) hout
  dsimp only at this
  rw [this]; simp; omega

/-- 1 leads, replicates its first entry, appends another it cannot replicate; 2 takes over: a
plain failover after which 1 is stuck. -/
def failover : List Action :=
  [.timeout 1 0, d 2 0, d 1 1, .send 1 1 1, d 2 2, d 3 2, .client 1 [7], .timeout 2 0, d 3 5, d 2 6]

example : (run [1, 2, 3] {} failover).isSome = true ∧
    ((final [1, 2, 3] failover).nodes 2).role = .leader ∧
    ((final [1, 2, 3] failover).nodes 2).log = [⟨1, 0⟩, ⟨2, 0⟩] ∧
    ((final [1, 2, 3] failover).nodes 1).log = [⟨1, 0⟩, ⟨1, 7⟩] ∧
    ((final [1, 2, 3] failover).nodes 1).term ≤ ((final [1, 2, 3] failover).nodes 2).term := by decide +kernel

example : PartAt ((final [1, 2, 3] failover).nodes 2).log ((final [1, 2, 3] failover).nodes 1).log 1 := by
  refine ⟨by decide +kernel, ⟨2, 0⟩, ⟨1, 7⟩, by decide +kernel, by decide +kernel, by decide⟩

/-- 3, which has only the first entry, is repaired. -/
example : (exchange 2 3 ((final [1, 2, 3] failover).nodes 2) ((final [1, 2, 3] failover).nodes 3)
    (heartbeat 2 ((final [1, 2, 3] failover).nodes 2)) [0, 0, 0]).log = [⟨1, 0⟩, ⟨2, 0⟩] := by decide +kernel

/-- After one more entry the hypotheses of `C24_later_entry_asks_for_snapshot` hold for 1. -/
example : (run [1, 2, 3] {} (failover ++ [.client 2 [9]])).isSome = true ∧
    1 + 1 < ((final [1, 2, 3] (failover ++ [.client 2 [9]])).nodes 2).log.length := by decide +kernel

/-- A follower with a different first entry, and one with a surplus. -/
example : (exchange 1 2 { role := .leader, term := 3, log := [⟨1, 0⟩, ⟨3, 0⟩, ⟨3, 1⟩] }
      { term := 2, log := [⟨2, 0⟩, ⟨2, 1⟩] }
      (heartbeat 1 { role := .leader, term := 3, log := [⟨1, 0⟩, ⟨3, 0⟩, ⟨3, 1⟩] }) [0, 0, 0, 0]).log =
    [⟨1, 0⟩, ⟨3, 0⟩, ⟨3, 1⟩] := by decide +kernel

example : (exchange 1 2 { role := .leader, term := 3, log := [⟨1, 0⟩, ⟨3, 0⟩] }
      { term := 2, log := [⟨1, 0⟩, ⟨3, 0⟩, ⟨3, 5⟩] }
      (heartbeat 1 { role := .leader, term := 3, log := [⟨1, 0⟩, ⟨3, 0⟩] }) [0, 0, 0, 0]).log =
    [⟨1, 0⟩, ⟨3, 0⟩, ⟨3, 5⟩] := by decide +kernel

end Verif.Raft

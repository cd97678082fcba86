import Verif.Proofs.ReconfigLog

/- Properties C77 and C78: elections and committed writes under membership changes. -/
namespace Verif.Reconfig
open Verif.Raft (Entry PeerID Role)

/-! ### C77: at most one leader per term while members are added and removed -/

/-- **C77** (leaders), under the condition that every membership change was made when a
majority of the old members had last reported both the old membership and the term of the
leader, and left at least one member. Missing: the code counts the two kinds of report
separately and also counts reports of a later term, and allows the last member to be removed;
see the counterexamples below. -/
theorem C77_one_leader_per_term_partial (boot : List Nat) (hb : boot.Nodup) (as bs : List Action)
    (s s' : Sys) (u v : Nat) (h : run (init boot) as = some s) (h' : run s bs = some s')
    (hcareful : ∀ c ∈ s'.hist.changes, c.old.names.length / 2 + 1 ≤ c.confirmed.length ∧ c.new.names ≠ [])
    (hu : (s.nodes u).role = .leader) (hv : (s'.nodes v).role = .leader)
    (ht : (s.nodes u).term = (s'.nodes v).term) : u = v ∧ (s.nodes u).inc = (s'.nodes v).inc := by
  have hi := Inv.run h
  obtain ⟨hi', hel, _⟩ := Inv.later hi h'
  obtain ⟨_, _, ⟨e, he, e1, e2, _⟩, _⟩ := hi.lead u hu
  obtain ⟨_, _, ⟨e', he', e1', e2', _⟩, _⟩ := hi'.lead v hv
  have := (unique_all hi' hb hcareful (s.nodes u).term).1 e (hel e he) e' he' e2 (by omega)
  rw [e1, e1'] at this
  exact ⟨congrArg Prod.fst this, congrArg Prod.snd this⟩

/-- **C77** (leaders, over the whole history): the elections won in one term were won by one
process, and it was elected under a membership at least as new as every membership that the
leader of an earlier term has replaced. -/
theorem C77_elections_partial (boot : List Nat) (hb : boot.Nodup) (as : List Action) (s : Sys)
    (h : run (init boot) as = some s)
    (hcareful : ∀ c ∈ s.hist.changes, c.old.names.length / 2 + 1 ≤ c.confirmed.length ∧ c.new.names ≠ [])
    (e : Election) (he : e ∈ s.hist.elected) :
    (∀ e' ∈ s.hist.elected, e.term = e'.term → e.who = e'.who) ∧
    ∀ c ∈ s.hist.changes, c.term < e.term → c.old.gt e.base = false := by
  have hi := Inv.run h
  refine ⟨fun e' he' ht => (unique_all hi hb hcareful e.term).1 e he e' he' rfl ht.symm, ?_⟩
  intro c hc ht
  have := (unique_all hi hb hcareful e.term).2 e he rfl c hc ht
  rw [gt_false]
  exact this

/-- **C77** (memberships): under the same condition a version belongs to one list of members. -/
theorem C77_version_names_members_partial (boot : List Nat) (hb : boot.Nodup) (as bs : List Action)
    (s s' : Sys) (u v : Nat) (h : run (init boot) as = some s) (h' : run s bs = some s')
    (hcareful : ∀ c ∈ s'.hist.changes, c.old.names.length / 2 + 1 ≤ c.confirmed.length ∧ c.new.names ≠ [])
    (hu : (s.nodes u).mc.names ≠ []) (hv : (s'.nodes v).mc.names ≠ [])
    (ht : (s.nodes u).mc.term = (s'.nodes v).mc.term) (hver : (s.nodes u).mc.ver = (s'.nodes v).mc.ver) :
    (s.nodes u).mc.names = (s'.nodes v).mc.names := by
  have hi := Inv.run h
  obtain ⟨hi', hel, hch⟩ := Inv.later hi h'
  have k1 : Created boot s'.hist (s.nodes u).mc := by
    rcases hi.known u with hk | hk
    · rw [hk] at hu; exact absurd rfl hu
    · exact hk.mono hel hch
  have k2 : Created boot s'.hist (s'.nodes v).mc := by
    rcases hi'.known v with hk | hk
    · rw [hk] at hv; exact absurd rfl hv
    · exact hk
  rw [uniq_key hi' (unique_all hi' hb hcareful _).1 k1 k2 (by unfold Conf.key; rw [ht, hver])]

/-- Shorthand for runs: message `k` arrives at `v`. -/
def d (v k : Nat) : Action := .deliver v k 0 {} []

/-- One leader adds node 4 and removes node 2; then node 3 is elected. -/
def sampleRun : List Action :=
  [.preVote 1 false, d 2 0, d 1 1, .timeout 1 0, d 2 2, d 1 3, .send 1 1 1, d 2 4, d 3 4, d 1 5, d 1 6,
   .client 1 [7], .send 1 2 1, d 2 7, d 1 8, .change 1 (.add 4), .send 1 0 0, d 3 9, d 4 9, d 1 10, d 1 11,
   .change 1 (.remove 2), .send 1 0 0, d 3 12, d 4 12, .preVote 3 false, d 4 15, d 3 16, .timeout 3 0,
   d 4 17, d 3 18, .send 3 1 2, d 4 19, d 3 20]

/-- What is looked at after a run: elections, changes, applied entries. -/
def summary (boot : List Nat) (as : List Action) :
    Option (List (Nat × PeerID) × List (List Nat × List Nat × List Nat) × List (Nat × Nat × Entry)) :=
  (run (init boot) as).map fun s =>
    (s.hist.elected.map fun e => (e.term, e.who),
     s.hist.changes.map fun c => (c.old.names, c.new.names, c.confirmed), s.hist.applied)

/-- The conditions hold in a run with two changes and two elections. -/
example : (run (init [1, 2, 3]) sampleRun).any (fun s =>
    decide (s.hist.elected.length = 2 ∧ s.hist.changes.length = 2 ∧
      (s.nodes 3).role = .leader ∧ (s.nodes 3).mc.names = [1, 3, 4]) &&
    s.hist.changes.all fun c =>
      decide (c.old.names.length / 2 + 1 ≤ c.confirmed.length ∧ c.new.names ≠ [])) = true := by
  decide +kernel

def final (boot : List Nat) (as : List Action) : Sys := (run (init boot) as).getD (init boot)

theorem get_run {boot : List Nat} {as : List Action} (h : (run (init boot) as).isSome = true) :
    run (init boot) as = some (final boot as) := by
  unfold final
  cases hr : run (init boot) as with
  | none => rw [hr] at h; cases h
  | some s => rfl

/-- Two different nodes lead the same term. -/
def TwoLeaders (s : Sys) : Prop :=
  ∃ u v, u ≠ v ∧ (s.nodes u).role = .leader ∧ (s.nodes v).role = .leader ∧
    (s.nodes u).term = (s.nodes v).term

/-- The code's own check before a change counts reports of the old membership and reports of
the term apart from each other. Five members; 1 leads term 2 and adds 4; 1, 5 and 4 report the
new membership, and enough members report a term, so 1 removes 2, though only three of six
have reported both. 2, still under the older membership, and 1 are then both elected in term 4. -/
def staleReportRun : List Action :=
  [.preVote 1 false, d 2 0, d 3 0, d 1 1, d 1 2, .timeout 1 0, d 2 3, d 3 3, d 1 4, d 1 5, .send 1 1 1,
   d 2 6, d 3 6, d 5 6, d 6 6, d 1 7, d 1 8, d 1 9, d 1 10, .change 1 (.add 4), .send 1 1 1, d 4 11,
   d 5 11, d 1 12, d 1 13, .send 1 0 0, .preVote 2 false, d 3 15, d 6 15, d 2 16, d 2 17,
   .preVote 5 false, d 4 18, d 3 18, d 6 18, d 5 19, d 5 20, d 5 21, .timeout 5 0, d 4 22,
   .preVote 4 false, d 5 24, d 3 24, d 6 24, d 4 25, d 4 26, d 4 27, .timeout 2 0, d 3 28, d 6 28,
   d 2 29, d 2 30, .timeout 4 0, d 3 31, d 3 14, .deliver 1 33 0 {} [.remove 2], .preVote 1 false,
   d 4 34, d 5 34, d 1 35, d 1 36, .send 2 0 0, d 3 37, d 2 38, .preVote 2 false, d 3 39, d 6 39,
   d 2 40, d 2 41, .timeout 1 0, d 4 42, d 5 42, d 1 43, d 1 44, .timeout 2 0, d 3 45, d 6 45, d 2 46,
   d 2 47]

/-- **C77 fails** for the code's own check: every change leaves members, yet two leaders. -/
theorem C77_counterexample_stale_report : ∃ as s, run (init [1, 2, 3, 5, 6]) as = some s ∧
    TwoLeaders s ∧ ∀ c ∈ s.hist.changes, c.new.names ≠ [] :=
  ⟨staleReportRun, _, get_run (by decide +kernel), ⟨1, 2, by decide +kernel⟩, by decide +kernel⟩

/-- 1 removes itself and then 2, the last member; it may then add 4, which nobody outvotes. -/
def emptyRun : List Action :=
  [.preVote 1 false, d 2 0, d 1 1, .timeout 1 0, d 2 2, d 1 3, .send 1 1 1, d 2 4, d 1 5, .send 1 1 0,
   d 2 6, d 1 7, .change 1 (.remove 1), .send 1 0 0, d 2 8, .deliver 1 9 0 {} [.remove 2],
   .change 1 (.add 4), .send 1 0 0, d 4 10, .preVote 2 false, .timeout 2 0, .preVote 4 false,
   .timeout 4 0]

/-- **C77 fails** once the last member is removed: every change is confirmed by a majority of
the members before it, yet two leaders. -/
theorem C77_counterexample_empty_membership : ∃ as s, run (init [1, 2]) as = some s ∧
    TwoLeaders s ∧ ∀ c ∈ s.hist.changes, c.old.names ≠ [] →
      c.old.names.length / 2 + 1 ≤ c.confirmed.length :=
  ⟨emptyRun, _, get_run (by decide +kernel), ⟨2, 4, by decide +kernel⟩, by decide +kernel⟩

/-! ### C78: committed writes survive membership changes -/

/-- The full claim for one execution. -/
def AppliedAgree (s : Sys) : Prop :=
  ∀ u v i e f, (u, i, e) ∈ s.hist.applied → (v, i, f) ∈ s.hist.applied → e = f

def Disagree (s : Sys) : Prop :=
  ∃ x ∈ s.hist.applied, ∃ y ∈ s.hist.applied, x.2.1 = y.2.1 ∧ x.2.2 ≠ y.2.2

instance (s : Sys) : Decidable (Disagree s) := by unfold Disagree; infer_instance

theorem Disagree.not_agree {s : Sys} (h : Disagree s) : ¬ AppliedAgree s := by
  obtain ⟨x, hx, y, hy, h1, h2⟩ := h
  intro ha
  exact h2 (ha x.1 y.1 x.2.1 x.2.2 y.2.2 hx (by rw [h1]; exact hy))

/-- **C78** (logs), under the condition of C77: an entry with the same index and term in two
logs, at any two moments, means the same entries up to there. Missing for the full claim: that
later leaders hold what earlier ones have committed; see the counterexamples below. -/
theorem C78_logs_match_partial (boot : List Nat) (hb : boot.Nodup) (as bs : List Action)
    (s s' : Sys) (u v i : Nat) (a b : Entry) (h : run (init boot) as = some s) (h' : run s bs = some s')
    (hcareful : ∀ c ∈ s'.hist.changes, c.old.names.length / 2 + 1 ≤ c.confirmed.length ∧ c.new.names ≠ [])
    (ha : (s.nodes u).log[i]? = some a) (hb' : (s'.nodes v).log[i]? = some b) (ht : a.term = b.term) :
    (s.nodes u).log.take (i + 1) = (s'.nodes v).log.take (i + 1) := by
  have hi := Inv.run h
  have hch := (Inv.later hi h').2.2
  have L := LInv.later hb (Inv.init boot) (LInv.init boot) (by intro p hp; cases hp) h
    (fun c hc => hcareful c (hch c hc))
  have L' := LInv.later hb hi L.1 L.2.1 h' hcareful
  exact (L'.2.2 _ (L.1.logOK u)).agree (L'.1.logOK v) ha hb' ht

/-- **C78** (applied entries), under the condition of C77: two nodes that apply entries of one
term at one index apply the same entry. Missing: entries of different terms. -/
theorem C78_applied_of_one_term_partial (boot : List Nat) (hb : boot.Nodup) (as : List Action)
    (s : Sys) (u v i : Nat) (e f : Entry) (h : run (init boot) as = some s)
    (hcareful : ∀ c ∈ s.hist.changes, c.old.names.length / 2 + 1 ≤ c.confirmed.length ∧ c.new.names ≠ [])
    (he : (u, i, e) ∈ s.hist.applied) (hf : (v, i, f) ∈ s.hist.applied) (ht : e.term = f.term) : e = f := by
  have L := LInv.later hb (Inv.init boot) (LInv.init boot) (by intro p hp; cases hp) h hcareful
  obtain ⟨A, hA, ha⟩ := L.2.1 _ he
  obtain ⟨B, hB, hb⟩ := L.2.1 _ hf
  have := congrArg (fun l => l[i - 1]?) (hA.agree hB ha hb ht)
  simp only [List.getElem?_take, show i - 1 < i - 1 + 1 by omega, if_true] at this
  rw [show A[i - 1]? = some e from ha, show B[i - 1]? = some f from hb] at this
  exact Option.some.inj this

/-- Both apply to the run above, where the logs agree at index 1 and differ at index 2. -/
example : let s := final [1, 2, 3] sampleRun
    (∀ c ∈ s.hist.changes, c.old.names.length / 2 + 1 ≤ c.confirmed.length ∧ c.new.names ≠ []) ∧
    (s.nodes 2).log = [⟨1, 0⟩, ⟨1, 7⟩] ∧ (s.nodes 4).log = [⟨1, 0⟩, ⟨2, 0⟩] ∧
    (2, 1, ⟨1, 0⟩) ∈ s.hist.applied ∧ (4, 1, ⟨1, 0⟩) ∈ s.hist.applied := by decide +kernel

/-- 1 removes itself from a cluster of two and goes on to commit a write alone. -/
def removedLeaderRun : List Action :=
  [.preVote 1 false, d 2 0, d 1 1, .timeout 1 0, d 2 2, d 1 3, .send 1 1 1, d 2 4, d 1 5, .send 1 1 0,
   d 2 6, d 1 7, .change 1 (.remove 1), .client 1 [7], .send 1 0 0, d 2 8, .preVote 2 false, .timeout 2 0]

/-- **C78 fails** after a leader has removed itself: it counts itself among the members that
have stored an entry. -/
theorem C78_counterexample_removed_leader : ∃ as s, run (init [1, 2]) as = some s ∧
    ¬ AppliedAgree s ∧ ∀ c ∈ s.hist.changes,
      c.old.names.length / 2 + 1 ≤ c.confirmed.length ∧ c.new.names ≠ [] :=
  ⟨removedLeaderRun, _, get_run (by decide +kernel), Disagree.not_agree (by decide +kernel),
    by decide +kernel⟩

/-- **C78 fails** although both changes are confirmed by a majority and the leader stays a
member: a write committed by 1 and 2 is not on 3 and 4 when 4 is added and 2 removed; then 3 is
elected by 4 and another write takes its place. -/
theorem C78_counterexample_unreplicated_entry : ∃ as s, run (init [1, 2, 3]) as = some s ∧
    ¬ AppliedAgree s ∧ ∀ c ∈ s.hist.changes,
      c.old.names.length / 2 + 1 ≤ c.confirmed.length ∧ c.new.names ≠ [] ∧ 1 ∈ c.new.names :=
  ⟨sampleRun, _, get_run (by decide +kernel), Disagree.not_agree (by decide +kernel),
    by decide +kernel⟩

end Verif.Reconfig

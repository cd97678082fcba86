import Verif.Proofs.CzarPing
/-
C89 to C95: reliable membership.
-/
namespace Verif.Czar
open Verif.KV (Key Store Leaf Ticket lookup put erase)

/-! ### A group used in the examples -/

/-- Times in half seconds: member leases of 6 s, czar leases of 5 s, clocks that agree. -/
def cEx : Cfg where
  det := fun i => { name := List.replicate (i + 1) 1, peerID := List.replicate (i + 1) 2 }
  clk := fun _ t => t + 1
  lclk := fun _ t => t + 1
  drift := 1
  memDur := 12
  czDur := 10
  minLeft := 4

theorem cEx_sane : Sane cEx where
  names := fun i h => by simp [cEx, List.replicate_succ] at h
  distinct := fun i j h => by have := congrArg List.length h; simp [cEx] at this; exact this
  dur := by decide
  drift := by decide
  mono := fun i t t' h => by show (t : Int) + 1 ≤ t' + 1; omega
  stamps := fun n r => by show (0 : Int) < r + 1; omega

theorem cEx_synced : Synced cEx := fun n i r => by show (r : Int) + 1 ≤ r + 1 + 1; omega

/-- Member 0 becomes czar; member 1 is refused the key, learns who is czar, and joins. -/
def joined : List (Nat × Nat × Act) :=
  [(0, 0, .bid 0), (0, 0, .apply 0 0 0), (0, 0, .answer 0), (1, 1, .bid 1), (1, 1, .apply 1 0 1), (1, 1, .answer 1),
   (2, 2, .ping 1 [91]), (2, 2, .serve 0 0), (2, 2, .reply 1)]

/-- Member 2 joins; its lease is given at 8 and ends at 21. -/
def joined2 : List (Nat × Nat × Act) :=
  joined ++ [(3, 3, .bid 2), (3, 3, .apply 2 0 3), (3, 3, .answer 2), (8, 8, .ping 2 [92]), (8, 8, .serve 0 1),
    (8, 8, .reply 2)]

/-- Member 1 loses the czar, whose lease ends, and becomes czar itself. -/
def lost : List (Nat × Nat × Act) :=
  joined2 ++ [(9, 9, .pingFail 1), (12, 12, .bid 1), (12, 12, .apply 3 0 12), (12, 12, .answer 1)]

/-- Then member 1 is gone, too; its lease ends at 23. -/
def stuck : List (Nat × Nat × Act) := lost ++ [(24, 24, .pingFail 2)]

/-- Member 1 loses its connection, asks the key who is czar, and pings again from the same address. -/
def again : List (Nat × Nat × Act) :=
  joined ++ [(3, 3, .pingFail 1), (3, 3, .bid 1), (3, 3, .apply 2 0 3), (3, 3, .answer 1), (4, 4, .ping 1 [91]),
    (4, 4, .serve 0 1), (4, 4, .reply 1)]

/-- Member 2 becomes czar after member 0; member 1 learns of it from the key, then pings it. -/
def untold : List (Nat × Nat × Act) :=
  joined2 ++ [(9, 9, .pingFail 2), (12, 12, .bid 2), (12, 12, .apply 3 0 12), (12, 12, .answer 2),
    (13, 13, .pingFail 1), (13, 13, .bid 1), (13, 13, .apply 4 0 13), (13, 13, .answer 1), (13, 13, .ping 1 [91]),
    (13, 13, .serve 2 2), (13, 13, .reply 1)]

/-- Members 1 and 2 join; the czar renews its lease twice; member 1 pings late, having been removed, at
the time at which member 2 is to be removed. -/
def crash : List (Nat × Nat × Act) :=
  joined2.take 12 ++ [(4, 4, .ping 2 [92]), (4, 4, .serve 0 1), (4, 4, .reply 2), (8, 8, .renew 0), (8, 8, .apply 3 0 8),
    (8, 8, .answer 0), (14, 14, .renew 0), (14, 14, .apply 4 0 14), (14, 14, .answer 0), (16, 16, .expire 0),
    (18, 18, .ping 1 [91]), (18, 18, .serve 0 2), (18, 18, .reply 1)]

theorem of_run {c : Cfg} {xs : List (Nat × Nat × Act)} {p : Sys → Bool} (h : (run c {} xs).any p = true) :
    ∃ s, run c {} xs = some s ∧ p s = true := by
  cases e : run c {} xs with
  | none => rw [e] at h; cases h
  | some s => rw [e] at h; exact ⟨s, rfl, h⟩

/-! ### C89: views never go back -/

/-- C89, first part: the versions of the views delivered to one member never decrease. -/
theorem C89_versions_never_decrease {c : Cfg} {s : Sys} (hs : Sane c) (h : Reach c s) (i : Nat) :
    (delivered s i).Pairwise fun v w => verLe v.1 w.1 := (Mono.reach hs h i).pw

/-- Three views are delivered to the czar. -/
example : ∃ s, Reach cEx s ∧ (delivered s 0).map (fun v => (v.1.epoch, v.1.within)) = [(1, 0), (1, 1), (1, 2)] := by
  obtain ⟨s, h1, h2⟩ := of_run (c := cEx) (xs := joined2)
    (p := fun s => (delivered s 0).map (fun v => (v.1.epoch, v.1.within)) = [(1, 0), (1, 1), (1, 2)]) (by decide +kernel)
  exact ⟨s, ⟨_, h1⟩, by simpa using h2⟩

/-- C89, the comparisons: the six functions agree with the order by epoch, then counter. -/
theorem C89_comparisons_agree (a b : Vers) :
    (versionLTE a b = true ↔ verLe a b) ∧ (versionGTE a b = true ↔ verLe b a) ∧
    (versionLT a b = true ↔ ¬ verLe b a) ∧ (versionGT a b = true ↔ ¬ verLe a b) ∧
    (versionEqual a b = true ↔ verLe a b ∧ verLe b a) ∧
    (versionCompare a b = if versionLT a b then -1 else if versionGT a b then 1 else 0) := by
  refine ⟨?_, ?_, ?_, ?_, ?_, ?_⟩
  · unfold versionLTE verLe; repeat' split
    all_goals simp <;> omega
  · unfold versionGTE verLe; repeat' split
    all_goals simp <;> omega
  · unfold versionLT verLe; repeat' split
    all_goals simp <;> omega
  · unfold versionGT verLe; repeat' split
    all_goals simp <;> omega
  · unfold versionEqual verLe; simp; omega
  · unfold versionCompare versionLT versionGT
    repeat' split
    all_goals simp_all
    all_goals omega

/-- C89, no repetition. Partial: between two moments between which the member took no view over from
the czar key without delivering it, no view delivered tells the same as the one delivered before
it. Missing: across such a take-over (`C89_repeat_counterexample`). -/
theorem C89_no_repeat_partial {c : Cfg} {s s' : Sys} {xs} {i : Nat} (hs : Sane c) (h : Reach c s)
    (hr : run c s xs = some s') (hq : quietOf s' i = quietOf s i) (k : Nat) (v w : View)
    (hk : (delivered s i).length ≤ k) (hv : (delivered s' i)[k]? = some v) (hw : (delivered s' i)[k + 1]? = some w) :
    told v ≠ told w := by
  have h0 : NoRep (delivered s i).length s i := by
    refine ⟨Nat.le_refl _, ?_, ?_⟩
    · intro v hv; simp at hv
    · intro k v w h1 _
      rw [List.getElem?_eq_none (by omega)] at h1
      cases h1
  have h1 := NoRep.run hs (Inv.reach hs h) hr hq h0
  obtain ⟨n, rfl⟩ := Nat.exists_eq_add_of_le hk
  exact fun e => h1.pw n v w hv hw (hashOf_told e)

/-- The czar of `joined2`, from its first view on. -/
example : ∃ s s' xs, Reach cEx s ∧ run cEx s xs = some s' ∧ quietOf s' 0 = quietOf s 0 ∧
    (delivered s 0).length + 2 < (delivered s' 0).length := by
  obtain ⟨s', h1, h2⟩ := of_run (c := cEx) (xs := joined2)
    (p := fun s => decide (quietOf s 0 = [] ∧ 2 < (delivered s 0).length)) (by decide +kernel)
  have h2 : quietOf s' 0 = [] ∧ 2 < (delivered s' 0).length := by simpa using h2
  exact ⟨{}, s', joined2, ⟨[], rfl⟩, h1, h2.1, by simpa [delivered] using h2.2⟩

/-- C89 fails otherwise: a member that lost its connection, read the czar key, and pinged the same
czar again is delivered the same view twice in a row. -/
theorem C89_repeat_counterexample : ∃ s, Reach cEx s ∧ ∃ v w, delivered s 1 = [v, w] ∧ told v = told w := by
  obtain ⟨s, h1, h2⟩ := of_run (c := cEx) (xs := again)
    (p := fun s => match delivered s 1 with | [v, w] => decide (told v = told w) | _ => false) (by decide +kernel)
  refine ⟨s, ⟨_, h1⟩, ?_⟩
  cases e : delivered s 1 with
  | nil => rw [e] at h2; cases h2
  | cons v l =>
    cases l with
    | nil => rw [e] at h2; cases h2
    | cons w l =>
      cases l with
      | nil => rw [e] at h2; exact ⟨v, w, rfl, by simpa using h2⟩
      | cons _ _ => rw [e] at h2; cases h2

/-! ### C90: equal versions, equal membership -/

/-- C90. Views with equal versions, delivered to members or answered to pings anywhere at any time,
have the same czar and the same members, with the same details. -/
theorem C90_same_version_same_view {c : Cfg} {s : Sys} (hs : Sane c) (h : Reach c s) (v w : View)
    (hv : v ∈ seen s) (hw : w ∈ seen s) (he : v.1.epoch = w.1.epoch) (hi : v.1.within = w.1.within) :
    v.2.czarName = w.2.czarName ∧ v.2.czarDet.map (·.det) = w.2.czarDet.map (·.det) ∧
      ∀ n, (lookup v.2.peers n).map (·.det) = (lookup w.2.peers n).map (·.det) :=
  Agree.reach hs h v hv w hw he hi

/-- Members 0 and 1 are both delivered version (1, 1). -/
example : ∃ s, Reach cEx s ∧ ∃ v ∈ delivered s 0, ∃ w ∈ delivered s 1,
    (v.1.epoch, v.1.within) = (1, 1) ∧ (w.1.epoch, w.1.within) = (1, 1) ∧ v.2.peers.length = 1 := by
  obtain ⟨s, h1, h2⟩ := of_run (c := cEx) (xs := joined2)
    (p := fun s => decide (∃ v ∈ delivered s 0, ∃ w ∈ delivered s 1,
      (v.1.epoch, v.1.within) = (1, 1) ∧ (w.1.epoch, w.1.within) = (1, 1) ∧ v.2.peers.length = 1)) (by decide +kernel)
  exact ⟨s, ⟨_, h1⟩, of_decide_eq_true h2⟩

/-! ### C91: one czar -/

/-- C91, first half: at no time would two members answer pings. -/
theorem C91_one_czar {c : Cfg} {s : Sys} (hs : Sane c) (hy : Synced c) (h : Reach c s) {t t2 t2' i j : Nat} {d d' : Det}
    {mi mj usi usj vi vj} (ht : s.now ≤ t)
    (hi : handlePing c (c.det i).name (s.mem i) d (c.clk i t) (c.clk i t2) = some (mi, usi, some vi))
    (hj : handlePing c (c.det j).name (s.mem j) d' (c.clk j t) (c.clk j t2') = some (mj, usj, some vj)) : i = j := by
  have hI := Inv.reach hs h
  have key : ∀ {n d t2 m us v}, handlePing c (c.det n).name (s.mem n) d (c.clk n t) (c.clk n t2) = some (m, us, some v) →
      (keyEpoch s, n) ∈ s.owner := by
    intro n d t2 m us v h
    have hc : (s.mem n).state = .amCzar ∧ c.clk n t ≤ (s.mem n).vers.until_ := by
      rcases handlePing_cases h with _ | ⟨a, _, b, _⟩ | ⟨a, b, _⟩
      · exact ⟨a, b⟩
      · exact ⟨a, b⟩
    have ho := (hI.mem n).czar hc.1
    exact hI.current hs hy ht ho hc.2 ▸ ho
  exact hI.key.one _ _ _ (key hi) (key hj)

/-- C91, second half: pings answered later are answered by czars of no lower epoch. -/
theorem C91_epochs_in_time_order {c : Cfg} {s : Sys} (hs : Sane c) (hy : Synced c) (h : Reach c s) :
    s.served.Pairwise fun x y => x.2.1 ≤ y.2.1 ∧ x.2.2.1.epoch ≤ y.2.2.1.epoch := served_pw hs hy h

/-- Pings answered by member 0 in epoch 1, then by member 2 in epoch 2. -/
example : Sane cEx ∧ Synced cEx ∧ ∃ s, Reach cEx s ∧
    s.served.map (fun x => (x.1, x.2.1, x.2.2.1.epoch)) = [(0, 2, 1), (0, 8, 1), (2, 13, 2)] := by
  obtain ⟨s, h1, h2⟩ := of_run (c := cEx) (xs := untold)
    (p := fun s => decide (s.served.map (fun x => (x.1, x.2.1, x.2.2.1.epoch)) = [(0, 2, 1), (0, 8, 1), (2, 13, 2)]))
    (by decide +kernel)
  exact ⟨cEx_sane, cEx_synced, s, ⟨_, h1⟩, of_decide_eq_true h2⟩

/-- In the same state members 0 and 2 both believe to be czar; at 14 member 2 would answer. -/
example : ∃ s, Reach cEx s ∧ (s.mem 0).state = .amCzar ∧ (s.mem 2).state = .amCzar ∧
    ((handlePing cEx (cEx.det 2).name (s.mem 2) (cEx.det 1) (cEx.clk 2 14) (cEx.clk 2 14)).bind (·.2.2)).isSome := by
  obtain ⟨s, h1, h2⟩ := of_run (c := cEx) (xs := untold)
    (p := fun s => decide ((s.mem 0).state = .amCzar ∧ (s.mem 2).state = .amCzar ∧
      ((handlePing cEx (cEx.det 2).name (s.mem 2) (cEx.det 1) (cEx.clk 2 14) (cEx.clk 2 14)).bind (·.2.2)).isSome))
    (by decide +kernel)
  exact ⟨s, ⟨_, h1⟩, of_decide_eq_true h2⟩

/-! ### C92: the caller is in the list -/

/-- C92. Partial: if no member other than the caller has outlived its lease, the answer has the
caller with its details and a lease of the full duration. Missing: otherwise
(`C92_joining_caller_missing_counterexample`); the duration (`C92_duration_missing_counterexample`). -/
theorem C92_caller_in_answer_partial {c : Cfg} {s s' : Sys} {t t2 j k i : Nat} {d : Det} {v : View} (hs : Sane c)
    (hr : Reach c s) (h : step c s (t, t2, .serve j k) = some s') (hp : s.pings[k]? = some (i, d))
    (hv : s'.served = s.served ++ [(j, t, v)]) (hdur : 0 ≤ c.memDur) (hnow : 0 < c.clk j t)
    (hlive : ∀ x ∈ (s.mem j).members.peers,
      0 < x.2.until_ ∧ (x.1 ≠ d.name → c.clk j t ≤ x.2.until_ + c.drift)) :
    ∃ p, lookup v.2.peers (c.det i).name = some p ∧ p.until_ = c.clk j t + c.memDur ∧ p.dur = c.memDur ∧
      { p.det with pid := d.pid } = d := by
  obtain ⟨m', us, hq⟩ := served_step h hp hv
  have hn : d.name = (c.det i).name := (Inv.reach hs hr).pings (i, d) (List.mem_of_getElem? hp)
  have := answer_has_caller hq ((SortedAll.reach hs hr).mem j) hdur hnow hlive
  rw [hn] at this
  exact this

/-- Member 2 joins a list that has member 1 in it. -/
example : ∃ s s' v, Reach cEx s ∧ step cEx s (8, 8, .serve 0 1) = some s' ∧ s'.served = s.served ++ [(0, 8, v)] ∧
    (s.mem 0).members.peers.length = 1 ∧
    ∀ x ∈ (s.mem 0).members.peers, 0 < x.2.until_ ∧ cEx.clk 0 8 ≤ x.2.until_ + cEx.drift := by
  obtain ⟨s, h1, h2⟩ := of_run (c := cEx) (xs := joined2.take 13)
    (p := fun s => (step cEx s (8, 8, .serve 0 1)).any (fun s' => match s'.served.drop s.served.length with
        | [x] => decide (s'.served = s.served ++ [(0, 8, x.2.2)]) | _ => false) &&
      decide ((s.mem 0).members.peers.length = 1 ∧
        ∀ x ∈ (s.mem 0).members.peers, 0 < x.2.until_ ∧ cEx.clk 0 8 ≤ x.2.until_ + cEx.drift)) (by decide +kernel)
  simp only [Bool.and_eq_true] at h2
  obtain ⟨h2, h3⟩ := h2
  cases e : step cEx s (8, 8, .serve 0 1) with
  | none => rw [e] at h2; cases h2
  | some s' =>
    rw [e] at h2
    simp only [Option.any_some] at h2
    split at h2
    · exact ⟨s, s', _, ⟨_, h1⟩, e, of_decide_eq_true h2, of_decide_eq_true h3⟩
    · cases h2

/-- C92 fails whenever a member joins at the moment another one is to be removed: the answer lacks
the caller, in every such state. -/
theorem C92_joining_caller_missing_counterexample {c : Cfg} {s s' : Sys} {t t2 j k i : Nat} {d : Det} {v : View}
    (hs : Sane c) (hr : Reach c s) (h : step c s (t, t2, .serve j k) = some s') (hp : s.pings[k]? = some (i, d))
    (hv : s'.served = s.served ++ [(j, t, v)]) (hnew : lookup (s.mem j).members.peers (c.det i).name = none)
    {x : Key × Plus} {heard : Int} (hx : x ∈ (s.mem j).members.peers) (hme : x.1 ≠ (c.det j).name)
    (hh : lookup (s.mem j).heard x.1 = some heard) (h1 : c.memDur < c.clk j t - heard)
    (h2 : x.2.until_ + c.drift < c.clk j t) : lookup v.2.peers (c.det i).name = none := by
  obtain ⟨m', us, hq⟩ := served_step h hp hv
  have hn : d.name = (c.det i).name := (Inv.reach hs hr).pings (i, d) (List.mem_of_getElem? hp)
  rw [← hn] at hnew ⊢
  exact answer_lacks_caller hq hnew hx hme hh h1 h2

/-- It happens, and costs the member its life: member 1, whose ping was late, is not in the list it
is answered with, and panics. -/
theorem C92_heartbeat_panics_counterexample : ∃ s, Reach cEx s ∧ (s.mem 1).dead = true ∧
    ∃ v, replyTo s 2 = some v ∧ lookup v.2.peers (cEx.det 1).name = none := by
  obtain ⟨s, h1, h2⟩ := of_run (c := cEx) (xs := crash)
    (p := fun s => decide ((s.mem 1).dead = true) &&
      (replyTo s 2).any fun v => decide (lookup v.2.peers (cEx.det 1).name = none)) (by decide +kernel)
  simp only [Bool.and_eq_true] at h2
  obtain ⟨h2, h3⟩ := h2
  refine ⟨s, ⟨_, h1⟩, of_decide_eq_true h2, ?_⟩
  cases e : replyTo s 2 with
  | none => rw [e] at h3; cases h3
  | some v => rw [e] at h3; exact ⟨v, rfl, of_decide_eq_true h3⟩

/-- C92 fails for the duration: every answer states 0. -/
theorem C92_duration_missing_counterexample {c : Cfg} {s s' : Sys} {t t2 j k i : Nat} {d : Det} {v : View}
    (h : step c s (t, t2, .serve j k) = some s') (hp : s.pings[k]? = some (i, d))
    (hv : s'.served = s.served ++ [(j, t, v)]) : v.2.leaseDur = 0 := by
  obtain ⟨m', us, hq⟩ := served_step h hp hv
  exact answer_no_dur hq

/-! ### C93: no member is dropped while its lease runs -/

/-- C93. Partial: among the answers of one czar in one term, a member in an answer with a lease up to
`u`, not more than the full duration away, is in every later answer given before `u` is over, by
the czar's clock, and not with a shorter lease. Missing: across a change of czar
(`C93_lost_at_change_counterexample`). -/
theorem C93_kept_in_term_partial {c : Cfg} {s : Sys} (hs : Sane c) (h : Reach c s) :
    s.served.Pairwise fun x y =>
      x.1 = y.1 → x.2.2.1.epoch = y.2.2.1.epoch → ∀ n p, lookup x.2.2.2.peers n = some p → ∀ u : Int,
        u ≤ p.until_ → u ≤ c.clk x.1 x.2.1 + c.memDur → 0 < u → c.clk x.1 y.2.1 ≤ u + c.drift →
        ∃ p', lookup y.2.2.2.peers n = some p' ∧ u ≤ p'.until_ := (Kept.reach hs h).2.2

/-- Two answers of member 0 in epoch 1; the first gives member 1 a lease until 15, the second comes at 9. -/
example : ∃ s, Reach cEx s ∧ s.served.map (fun x => (x.1, x.2.1, x.2.2.1.epoch,
      (lookup x.2.2.2.peers (cEx.det 1).name).map (·.until_))) = [(0, 2, 1, some 15), (0, 8, 1, some 15)] := by
  obtain ⟨s, h1, h2⟩ := of_run (c := cEx) (xs := joined2)
    (p := fun s => decide (s.served.map (fun x => (x.1, x.2.1, x.2.2.1.epoch,
      (lookup x.2.2.2.peers (cEx.det 1).name).map (·.until_))) = [(0, 2, 1, some 15), (0, 8, 1, some 15)]))
    (by decide +kernel)
  exact ⟨s, ⟨_, h1⟩, of_decide_eq_true h2⟩

/-- C93 fails across a change of czar: member 2 was given a lease until 21 by member 0; member 1 becomes
czar with the list it was told last, and delivers at 13 a view without member 2. -/
theorem C93_lost_at_change_counterexample : ∃ s, Reach cEx s ∧
    (∃ x ∈ s.served, x.1 = 0 ∧ ∃ p, lookup x.2.2.2.peers (cEx.det 2).name = some p ∧ p.until_ = 21) ∧
    cEx.clk 1 s.now = 13 ∧ (s.mem 1).state = .amCzar ∧
    ∃ v ∈ delivered s 1, v.1.epoch = 2 ∧ lookup v.2.peers (cEx.det 2).name = none := by
  obtain ⟨s, h1, h2⟩ := of_run (c := cEx) (xs := lost)
    (p := fun s => decide ((∃ x ∈ s.served, x.1 = 0 ∧ (lookup x.2.2.2.peers (cEx.det 2).name).map (·.until_) = some 21) ∧
      cEx.clk 1 s.now = 13 ∧ (s.mem 1).state = .amCzar ∧
      ∃ v ∈ delivered s 1, v.1.epoch = 2 ∧ lookup v.2.peers (cEx.det 2).name = none)) (by decide +kernel)
  obtain ⟨⟨x, hx, e1, e2⟩, h3⟩ := of_decide_eq_true h2
  obtain ⟨p, hp, e2⟩ := Option.map_eq_some_iff.1 e2
  exact ⟨s, ⟨_, h1⟩, ⟨x, hx, e1, p, hp, e2⟩, h3⟩

/-! ### C94: a lost czar is replaced -/

/-- C94. Partial: a member that remembers the epoch of the key, or none, becomes czar with the three
events of one attempt, if its write is stamped after the lease of the key and the drift bound, and
answered while enough of the new lease is left. Missing: a member that remembers an earlier epoch
(`C94_locked_out_counterexample`). -/
theorem C94_take_over_partial {c : Cfg} {s : Sys} {i : Nat} {l : Leaf} {n r t0 t1 t2 t3 : Nat} (hs : Sane c)
    (h : Reach c s) (hl : keyLeaf s = some l)
    (hst : (s.mem i).state = .unknown) (hb : (s.mem i).busy = none) (hd : (s.mem i).dead = false)
    (he : (s.mem i).vers.epoch = 0 ∨ (s.mem i).vers.epoch = l.epoch)
    (h0 : s.now ≤ t0) (h1 : t0 ≤ r) (h2 : r ≤ t1) (h3 : t1 ≤ t2) (h4 : t2 ≤ t3)
    (hover : l.endTm + c.drift < c.lclk n r) (hleft : c.minLeft ≤ c.lclk n r + c.czDur - c.clk i t2)
    (hin : c.clk i t3 ≤ c.lclk n r + c.czDur) :
    ∃ s', run c s [(t0, t0, .bid i), (t1, t1, .apply s.reqs.length n r), (t2, t3, .answer i)] = some s' ∧
      (s'.mem i).state = .amCzar ∧ (s'.mem i).vers.epoch = keyEpoch s' ∧
      ∃ l', keyLeaf s' = some l' ∧ l'.leasor = (c.det i).name ∧ (s'.mem i).vers.until_ = l'.endTm :=
  take_over hs h hl hst hb hd he h0 h1 h2 h3 h4 hover hleft hin

/-- Member 1 of `joined2` after it lost the czar. -/
example : ∃ s l, Reach cEx s ∧ keyLeaf s = some l ∧ (s.mem 1).state = .unknown ∧ (s.mem 1).busy = none ∧
    (s.mem 1).dead = false ∧ (s.mem 1).vers.epoch = l.epoch ∧ s.now ≤ 12 ∧ l.endTm + cEx.drift < cEx.lclk 0 12 := by
  obtain ⟨s, h1, h2⟩ := of_run (c := cEx) (xs := joined2 ++ [(9, 9, .pingFail 1)])
    (p := fun s => (keyLeaf s).any fun l => decide ((s.mem 1).state = .unknown ∧ (s.mem 1).busy = none ∧
    (s.mem 1).dead = false ∧ (s.mem 1).vers.epoch = l.epoch ∧ s.now ≤ 12 ∧ l.endTm + cEx.drift < cEx.lclk 0 12))
    (by decide +kernel)
  cases e : keyLeaf s with
  | none => rw [e] at h2; cases h2
  | some l => rw [e] at h2; exact ⟨s, l, ⟨_, h1⟩, e, of_decide_eq_true h2⟩

/-- C94 fails otherwise, for ever: if the members left remember an epoch other than 0 and that of the key,
and no write with another is under way, then, whatever they do, none of them is ever czar. -/
theorem C94_locked_out_counterexample {c : Cfg} {s s' : Sys} {alive : Nat → Prop} {l : Leaf} {xs} (hs : Sane c)
    (h : Reach c s) (hl : keyLeaf s = some l) (hlate : ∀ i, alive i → l.endTm + c.drift < c.clk i s.now)
    (hm : ∀ i, alive i → (s.mem i).state ≠ .amCzar ∧ (s.mem i).vers.epoch ≠ 0 ∧ (s.mem i).vers.epoch ≠ l.epoch ∧
      ∀ k, (s.mem i).busy ≠ some (.renew k))
    (hq : ∀ (k : Nat) q, s.reqs[k]? = some q → answerTo s k = none → q.epoch ≠ 0 ∧ q.epoch ≠ l.epoch)
    (hx : ∀ x ∈ xs, ∀ i, actor x.2.2 = some i → alive i) (hr : run c s xs = some s') :
    keyLeaf s' = some l ∧ ∀ i, alive i → (s'.mem i).state ≠ .amCzar := by
  have := Stuck.run hs (Inv.reach hs h) ⟨hl, hlate, hm, hq⟩ hx hr
  exact ⟨this.key, fun i hi => (this.mem i hi).1⟩

/-- It happens: member 2, left alone after members 0 and 1, each czar for a time, is locked out. -/
theorem C94_locked_out_reachable_counterexample : ∃ s l, Reach cEx s ∧ keyLeaf s = some l ∧
    l.endTm + cEx.drift < cEx.clk 2 s.now ∧ (s.mem 2).state = .unknown ∧ (s.mem 2).dead = false ∧
    ∀ xs s', (∀ x ∈ xs, ∀ i, actor x.2.2 = some i → i = 2) → run cEx s xs = some s' → (s'.mem 2).state ≠ .amCzar := by
  obtain ⟨s, h1, h2⟩ := of_run (c := cEx) (xs := stuck)
    (p := fun s => (keyLeaf s).any fun l => decide (l.endTm + cEx.drift < cEx.clk 2 s.now ∧ (s.mem 2).state = .unknown ∧
      (s.mem 2).dead = false ∧ (s.mem 2).vers.epoch ≠ 0 ∧ (s.mem 2).vers.epoch ≠ l.epoch ∧ (s.mem 2).busy = none ∧
      ∀ k ∈ List.range s.reqs.length, answerTo s k ≠ none)) (by decide +kernel)
  cases e : keyLeaf s with
  | none => rw [e] at h2; cases h2
  | some l =>
    rw [e] at h2
    obtain ⟨a1, a2, a3, a4, a5, a6, a7⟩ := of_decide_eq_true h2
    refine ⟨s, l, ⟨_, h1⟩, e, a1, a2, a3, ?_⟩
    intro xs s' hx hr
    refine (C94_locked_out_counterexample (alive := (· = 2)) cEx_sane ⟨_, h1⟩ e ?_ ?_ ?_ hx hr).2 2 rfl
    · rintro i rfl; exact a1
    · rintro i rfl; exact ⟨by rw [a2]; simp, a4, a5, by rw [a6]; simp⟩
    · intro k q hk hn
      exact absurd hn (a7 k (List.mem_range.2 (List.getElem?_eq_some_iff.1 hk).1))

/-! ### C95: a member is told the view it is in -/

/-- C95. Partial: when a member accepts the czar's answer, then a view of that version, with the same
czar and members with the same details, has been delivered to it, unless it took over a view of
that version from the czar key. Missing: that case (`C95_untold_counterexample`). -/
theorem C95_told_partial {c : Cfg} {s s' : Sys} {t t2 i k : Nat} {v : View} (hs : Sane c) (h : Reach c s)
    (hst : step c s (t, t2, .reply i) = some s') (hb : (s.mem i).busy = some (.ping k)) (hv : replyTo s k = some v)
    (hok : Accepts c (c.det i) (s.mem i) v (c.clk i t) (c.clk i t2))
    (hq : ∀ u ∈ quietOf s i, ¬ (u.1.epoch = v.1.epoch ∧ u.1.within = v.1.within)) :
    (s'.mem i).vers = v.1 ∧ ∃ u ∈ delivered s' i, u.1.epoch = v.1.epoch ∧ u.1.within = v.1.within ∧ sameView u.2 v.2 := by
  obtain ⟨xs, hx⟩ := h
  have hR : Reach c s := ⟨xs, hx⟩
  have hR' : Reach c s' := reach_step hR hst
  obtain ⟨-, -, s1, h1, rfl⟩ := step_inv hst
  unfold event at h1
  simp only [hb, hv] at h1
  split at h1
  · cases h1
  cases h1
  have hacc := accepted (m := { s.mem i with busy := none }) hok
  simp only [Sys.put, upd_same] at hR' ⊢
  refine ⟨hacc.1, ?_⟩
  obtain ⟨u, hu, e⟩ := hash_from hs hR' i (hashOf v.2 v.1) (by simp only [upd_same]; exact hacc.2)
  have e1 : u.1.epoch = v.1.epoch ∧ u.1.within = v.1.within := by
    unfold hashOf at e
    simp only [Prod.mk.injEq] at e
    exact ⟨e.1.symm, e.2.1.symm⟩
  rcases hu with hu | hu
  · refine ⟨u, hu, e1.1, e1.2, ?_⟩
    refine Agree.reach hs hR' u ?_ v ?_ e1.1 e1.2
    · unfold delivered at hu
      obtain ⟨y, hy, rfl⟩ := List.mem_map.1 hu
      unfold seen
      exact List.mem_append_left _ (List.mem_map.2 ⟨y, (List.mem_filter.1 hy).1, rfl⟩)
    · have hm : (k, v) ∈ s.replies := by
        unfold replyTo at hv
        obtain ⟨y, hy, e⟩ := Option.map_eq_some_iff.1 hv
        have h2 := List.find?_some hy
        have h3 := List.mem_of_find?_eq_some hy
        obtain ⟨a, b⟩ := y
        simp only [decide_eq_true_eq] at h2 e
        subst h2; subst e
        exact h3
      obtain ⟨_, _, _, _, _, _, hs', _⟩ := (Inv.reach hs hR).rep k v hm
      unfold seen at hs' ⊢
      rw [List.map_append]
      rcases List.mem_append.1 hs' with h | h
      · exact List.mem_append_left _ (List.mem_append_left _ h)
      · exact List.mem_append_right _ h
  · exact absurd e1 (hq u hu)

/-- Member 1 of `joined` accepts version (1, 1), having read version (1, 0) from the key. -/
example : ∃ s s' v, Reach cEx s ∧ step cEx s (2, 2, .reply 1) = some s' ∧ (s.mem 1).busy = some (.ping 0) ∧
    replyTo s 0 = some v ∧ Accepts cEx (cEx.det 1) (s.mem 1) v (cEx.clk 1 2) (cEx.clk 1 2) ∧ quietOf s 1 ≠ [] ∧
    ∀ u ∈ quietOf s 1, ¬ (u.1.epoch = v.1.epoch ∧ u.1.within = v.1.within) := by
  obtain ⟨s, h1, h2⟩ := of_run (c := cEx) (xs := joined.take 8)
    (p := fun s => (step cEx s (2, 2, .reply 1)).isSome && ((replyTo s 0).any fun (v : View) =>
      decide ((s.mem 1).busy = some (.ping 0) ∧ ((s.mem 1).vers.epoch = v.1.epoch ∧ (s.mem 1).vers.within ≤ v.1.within) ∧
        cEx.clk 1 2 ≤ v.1.until_ ∧ (s.mem 1).conn = false ∧ quietOf s 1 ≠ [] ∧
        ∀ u ∈ quietOf s 1, ¬ (u.1.epoch = v.1.epoch ∧ u.1.within = v.1.within)))) (by decide +kernel)
  simp only [Bool.and_eq_true] at h2
  obtain ⟨h2, h3⟩ := h2
  obtain ⟨s', hs'⟩ := Option.isSome_iff_exists.1 h2
  cases e : replyTo s 0 with
  | none => rw [e] at h3; cases h3
  | some v =>
    rw [e] at h3
    obtain ⟨a1, a2, a3, a4, a5, a6⟩ := of_decide_eq_true h3
    exact ⟨s, s', v, ⟨_, h1⟩, hs', a1, e, ⟨Or.inr a2, a3, by rw [a4]; simp⟩, a5, a6⟩

/-- C95 fails otherwise: member 1 has accepted version (2, 0), of the czar that followed the first, and was
never told of a view of that epoch. -/
theorem C95_untold_counterexample : ∃ s, Reach cEx s ∧ (s.mem 1).state = .notCzar ∧
    (s.mem 1).conn = true ∧ (∃ v, replyTo s 2 = some v ∧ (s.mem 1).vers = v.1 ∧ v.1.epoch = 2) ∧
    ∀ u ∈ delivered s 1, u.1.epoch < 2 := by
  obtain ⟨s, h1, h2⟩ := of_run (c := cEx) (xs := untold)
    (p := fun s => ((replyTo s 2).any fun (v : View) => decide ((s.mem 1).state = .notCzar ∧
    (s.mem 1).conn = true ∧ (s.mem 1).vers = v.1 ∧ v.1.epoch = 2 ∧ ∀ u ∈ delivered s 1, u.1.epoch < 2))) (by decide +kernel)
  cases e : replyTo s 2 with
  | none => rw [e] at h2; cases h2
  | some v =>
    rw [e] at h2
    obtain ⟨a1, a2, a3, a4, a5⟩ := of_decide_eq_true h2
    exact ⟨s, ⟨_, h1⟩, a1, a2, ⟨v, e, a3, a4⟩, a5⟩

end Verif.Czar

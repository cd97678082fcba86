import Verif.Proofs.Session
/- C33: client sessions. -/
namespace Verif.Session
variable {S α ρ : Type}

/-- C33, partial: in every run in which no leader takes a write of which its log holds a copy not
yet applied, a write of a session is committed at most once, whichever leaders it was sent to, how
often, and whatever became of them; so it takes effect at most once.
Missing: the resubmission to a leader that has the write in its log but has not applied it
(`C33_retry_in_flight_counterexample`). -/
theorem C33_at_most_once_partial {f : S → α → S × ρ} {s0 : S} {c : Cluster α} (h : Run f s0 true c)
    {sid serial i j m m' : Nat} {x x' : α} (hs : sid ≠ 0)
    (hi : c.committed[i]? = some (.op sid serial m false x))
    (hj : c.committed[j]? = some (.op sid serial m' false x')) : i = j :=
  (((run_inv h).dup rfl).prefix (List.prefix_append _ _)) i j sid serial m m' x x' hs hi hj

/-- A leader that has applied a write does not take it again, in any run. -/
theorem C33_applied_not_taken {f : S → α → S × ρ} {s0 : S} {noRetry : Bool} {c : Cluster α}
    (h : Run f s0 noRetry c) {a : Nat} {n : Node S ρ} {over : Bool} {t : Req α}
    (hn : Replay f s0 (c.committed.take a) n) (hs : t.sid ≠ 0) (hw : t.read = false)
    {i m : Nat} {b : Bool} {x : α} (hi : i < a) (hc : c.committed[i]? = some (.op t.sid t.serial m b x)) :
    (submit n a over t).2 ≠ .accepted := by
  intro hacc
  obtain ⟨e, he, hlt⟩ := submit_accepted hacc hs
  have hp : c.committed.take a <+: c.committed := List.take_prefix _ _
  have k := (replay_knows hn ((run_inv h).ord.prefix (hp.trans (List.prefix_append _ _)))).2 t.sid e hs he
  have hm : Entry.op t.sid t.serial m b x ∈ c.committed.take a := by
    apply List.mem_of_getElem? (i := i)
    rw [List.getElem?_take_of_lt hi]; exact hc
  have := k.high _ _ _ _ hm
  have := hlt hw
  omega

/-- An answer given from the session table is the answer of a committed copy of the request, at the
state of the store in which that copy took effect. -/
theorem C33_original_answer {f : S → α → S × ρ} {s0 : S} {noRetry : Bool} {c : Cluster α}
    (h : Run f s0 noRetry c) {a : Nat} {n : Node S ρ} {over : Bool} {t : Req α} {r : ρ}
    (hn : Replay f s0 (c.committed.take a) n) (hr : (submit n a over t).2 = .answered r) :
    ∃ (i m : Nat) (b : Bool) (x : α), i < a ∧ c.committed[i]? = some (.op t.sid t.serial m b x) ∧
      r = (f (storeAfter f s0 (c.committed.take i)) x).2 :=
  (answer_source h hn hr).2

/-- C33, partial (for runs as in `C33_at_most_once_partial`): all answers to resubmissions of a
write are the same, at any two nodes and any two times, even if the nodes dropped the session or
part of its answers in between. -/
theorem C33_answers_agree_partial {f : S → α → S × ρ} {s0 : S} {c c' : Cluster α}
    (h : Run f s0 true c) (hl : Steps f s0 true c c') {a a' : Nat} {n n' : Node S ρ} {over over' : Bool}
    {t t' : Req α} {r r' : ρ} (hsid : t.sid = t'.sid) (hser : t.serial = t'.serial)
    (hn : Replay f s0 (c.committed.take a) n) (hn' : Replay f s0 (c'.committed.take a') n')
    (hr : (submit n a over t).2 = .answered r) (hr' : (submit n' a' over' t').2 = .answered r')
    (hw : ∀ m b x, .op t.sid t.serial m b x ∈ c'.committed → b = false) : r = r' := by
  obtain ⟨hs, i, m, b, x, _, h1, h2⟩ := answer_source h hn hr
  obtain ⟨_, i', m', b', x', _, h1', h2'⟩ := answer_source (steps_run h hl) hn' hr'
  have hp := steps_prefix hl
  rw [← hsid, ← hser] at h1'
  have h3 := getElem?_prefix hp h1
  have hb := hw _ _ _ (List.mem_of_getElem? h3)
  have hb' := hw _ _ _ (List.mem_of_getElem? h1')
  subst hb; subst hb'
  have e := C33_at_most_once_partial (steps_run h hl) hs h3 h1'
  subst e
  rw [h3] at h1'
  cases h1'
  rw [h2, h2']
  have : c'.committed.take i = c.committed.take i := by
    obtain ⟨q, hq⟩ := hp
    have := (List.getElem?_eq_some_iff.1 h1).1
    rw [← hq, List.take_append_of_le_length (by omega)]
  rw [this]

/-- What a leader does on a request leaves it in a state covered by the theorems above. -/
theorem C33_leader_stays_covered {f : S → α → S × ρ} {s0 : S} {log : List (Entry α)} {n : Node S ρ}
    {a : Nat} {over : Bool} {t : Req α} (h : Replay f s0 log n) :
    Replay f s0 log (submit n a over t).1 := submit_replay h

/-- Once a write of a session is applied at a node that knows the session, a retry that reaches the
node as leader is answered with the write's answer, however often, until the session ends there or
the client acknowledges the answer. -/
theorem C33_answer_kept (f : S → α → S × ρ) (n : Node S ρ) (sid serial m : Nat) (b : Bool) (x : α)
    (hs : sid ≠ 0) (hk : (n.sess sid).isSome) (hm : m ≤ serial)
    (es : List (Event α)) (hes : ∀ v ∈ es, v.Leaves sid serial)
    (t : Req α) (ht : t.sid = sid) (hser : t.serial = serial) (applied : Nat)
    (hl : t.lastKnown ≤ applied) :
    (submit (es.foldl (Event.run f) (applyEntry f n (.op sid serial m b x))) applied false t).2
      = .answered (f n.store x).2 := by
  have h0 : Remembers sid serial (f n.store x).2 (applyEntry f n (.op sid serial m b x)) := by
    obtain ⟨e, he⟩ := Option.isSome_iff_exists.1 hk
    simp only [applyEntry, hs, if_false, he]
    exact ⟨_, by simp [setSess]; rfl, lookup_remember hm⟩
  have hall : ∀ (es : List (Event α)) (n' : Node S ρ), (∀ v ∈ es, v.Leaves sid serial) →
      Remembers sid serial (f n.store x).2 n' →
      Remembers sid serial (f n.store x).2 (es.foldl (Event.run f) n') := by
    intro es
    induction es with
    | nil => intro n' _ h; exact h
    | cons v es ih =>
      intro n' hv h
      exact ih _ (fun w hw => hv w (by simp [hw])) (h.run (hv v (by simp)))
  obtain ⟨e, he, hr⟩ := hall es _ hes h0
  unfold submit
  rw [if_neg (by omega), ht, he]
  dsimp only
  rw [if_neg (by omega), hser, hr]
  simp

/-! ### A counter that answers its new value -/

def count (s _x : Nat) : Nat × Nat := (s + 1, s + 1)
def incr : Req Nat := { sid := 1, serial := 1, x := 0 }
/-- A leader that has opened session 1. -/
def opened : Node Nat Nat := applyEntry count (applyEntry count { store := 0 } .noop) (.newSess 1)
def counted : Node Nat Nat := applyEntry count opened incr.entry

theorem opened_replay : Replay count 0 [.noop, .newSess 1] opened :=
  (Replay.start.apply (log := []) .noop).apply (.newSess 1)
theorem counted_replay : Replay count 0 [.noop, .newSess 1, incr.entry] counted :=
  opened_replay.apply incr.entry

theorem opened_run (b : Bool) : Run count 0 b ⟨[.noop, .newSess 1], [], [], true⟩ := by
  have r1 : Run count 0 b ⟨[], [.noop], [[]], false⟩ := Run.start.step (Step.elect (σ := []) (Or.inr (List.prefix_refl _)))
  have r2 : Run count 0 b ⟨[.noop], [], [], true⟩ := r1.step (Step.commit 1 (by decide) (Or.inr (by decide)))
  have r3 : Run count 0 b ⟨[.noop], [.newSess 1], [], true⟩ := r2.step (Step.newSession 1 rfl (by decide) (by decide))
  exact r3.step (Step.commit 1 (by decide) (Or.inl rfl))

theorem taken_run (b : Bool) : Run count 0 b ⟨[.noop, .newSess 1], [incr.entry], [], true⟩ :=
  (opened_run b).step (Step.accept (a := 2) (n := opened) (over := false) (t := incr) rfl (by decide)
    opened_replay (by decide) (by intro _ _ _ m x; simp))

theorem counted_run (b : Bool) : Run count 0 b ⟨[.noop, .newSess 1, incr.entry], [], [], true⟩ :=
  (taken_run b).step (Step.commit 1 (by decide) (Or.inl rfl))

/-- The retry after the write was applied: answered with the first answer. -/
example : (submit counted 3 false incr).2 = .answered 1 := by decide
example : (submit counted 3 false incr).2 ≠ .accepted :=
  C33_applied_not_taken (counted_run true) (i := 2) (m := 0) (b := false) (x := 0) (a := 3) counted_replay
    (by decide) rfl (by decide) (by decide)
example : ∃ (i m : Nat) (b : Bool) (x : Nat), i < 3 ∧
    ([.noop, .newSess 1, incr.entry] : List (Entry Nat))[i]? = some (.op 1 1 m b x) ∧
    1 = (count (storeAfter count 0 (([.noop, .newSess 1, incr.entry] : List (Entry Nat)).take i)) x).2 :=
  C33_original_answer (counted_run true) (t := incr) counted_replay (over := false) (by decide)
example {j m' x'} (h : ([.noop, .newSess 1, incr.entry] : List (Entry Nat))[j]? = some (.op 1 1 m' false x')) : 2 = j :=
  C33_at_most_once_partial (counted_run true) (m := 0) (x := 0) (by decide) (by decide) h
/-- The session dropped at one node and a later state of another: the same answer. -/
example {n' r' a'} {c'} (hl : Steps count 0 true ⟨[.noop, .newSess 1, incr.entry], [], [], true⟩ c')
    (hn' : Replay count 0 (c'.committed.take a') n') (hr' : (submit n' a' false incr).2 = .answered r')
    (hw : ∀ m b x, .op 1 1 m b x ∈ c'.committed → b = false) : 1 = r' :=
  C33_answers_agree_partial (counted_run true) hl (t := incr) (t' := incr) (a := 3) (over := false) rfl rfl
    counted_replay hn' (by decide) hr' hw
/-- Another write of the session, and a retry of it, in between: still the first answer. -/
example : (submit (([.apply (.op 1 2 1 false 0), .request 4 false { sid := 1, serial := 2, minWait := 1, x := 0 }] :
    List (Event Nat)).foldl (Event.run count) counted) 4 false incr).2 = .answered 1 :=
  C33_answer_kept count opened 1 1 0 false 0 (by decide) (by decide) (by decide) _
    (by simp [Event.Leaves]) incr rfl rfl 4 (by decide)
/-- A new leader whose log has the write, and a retry to it: held back until its noop, and with it
the write, is applied. -/
example : Run count 0 true ⟨[.noop, .newSess 1, incr.entry, .noop], [], [], true⟩ := by
  have r1 : Run count 0 true ⟨[.noop, .newSess 1], [incr.entry, .noop], [[incr.entry]], false⟩ :=
    (taken_run true).step (Step.elect (σ := [incr.entry]) (Or.inr (List.prefix_refl _)))
  exact r1.step (Step.commit 2 (by decide) (Or.inr (by decide)))

/-- C33 fails as stated: resubmitted to the same leader before the first copy is applied, the write
is committed twice and takes effect twice (the counter ends at 2). -/
theorem C33_retry_in_flight_counterexample :
    Run count 0 false ⟨[.noop, .newSess 1, incr.entry, incr.entry], [], [], true⟩ ∧
    storeAfter count 0 [.noop, .newSess 1, incr.entry, incr.entry] = 2 := by
  refine ⟨?_, rfl⟩
  have r2 : Run count 0 false ⟨[.noop, .newSess 1], [incr.entry, incr.entry], [], true⟩ :=
    (taken_run false).step (Step.accept (a := 2) (n := opened) (over := false) (t := incr) rfl (by decide)
      opened_replay (by decide) (by intro h; cases h))
  exact r2.step (Step.commit 2 (by decide) (Or.inl rfl))

end Verif.Session

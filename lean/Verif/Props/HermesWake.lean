import Verif.Proofs.HermesWake

/-! C137: a waiting request keeps a timer. -/

namespace Verif.HermesWake

/-! ## C137 -/

/-- Full statement (false, see the counterexamples): after every run from the
start, if the queue is not empty then a timer is set, for a time not later than
ten microseconds after the earliest deadline. -/
def C137_full (T : Nat) : Prop :=
  ∀ (now : Nat) (es : List Ev), (run T (init now) es).q ≠ [] →
    ∃ t, (run T (init now) es).armed = some t ∧
      ∀ e ∈ (run T (init now) es).q, t ≤ e.1 + slack

/-- After every run: a timer that is set fires not later than ten microseconds
after the earliest deadline in the queue. What is missing: that one is set. -/
theorem C137_timer_in_time_partial (T now : Nat) (es : List Ev) (t : Nat)
    (ht : (run T (init now) es).armed = some t) :
    ∀ e ∈ (run T (init now) es).q, t ≤ e.1 + slack :=
  ((run_inv es (init_inv T now)).2.on t ht).2.2.2

example : (run 5000000 (init 1) [.request 1, .tick 1000, .message [.record 2]]).armed
    = some 5010001 := by decide

/-- After every run: no ticket is in the queue twice, and the queue is in the order
of the deadlines. -/
theorem C137_queue_in_order (T now : Nat) (es : List Ev) :
    (run T (init now) es).q.Pairwise (fun a b => a.2 ≠ b.2) ∧
    (run T (init now) es).q.Pairwise (fun a b => a.1 ≤ b.1) := by
  refine ⟨?_, (run_inv es (init_inv T now)).1.sorted⟩
  have key : ∀ (es : List Ev) (s : W), Uniq s → Uniq (run T s es) := by
    intro es
    induction es with
    | nil => exact fun _ h => h
    | cons e es ih => exact fun s h => ih _ (step_uniq e h)
  exact key es _ List.Pairwise.nil

example : (run 50 (init 1) [.request 7, .request 8, .tick 3, .request 7]).q = [(51, 8), (54, 7)] := by decide

/-- After every run that leaves no timer set: the next request that has to wait
sets one, in time for all that wait. (With a timer set it does the opposite.) -/
theorem C137_request_sets_timer_partial (T now : Nat) (hT : 0 < T) (es : List Ev) (id : Nat)
    (hn : (run T (init now) es).armed = none) :
    ∃ t, (run T (init now) (es ++ [.request id])).armed = some t ∧
      (run T (init now) (es ++ [.request id])).q ≠ [] ∧
      ∀ e ∈ (run T (init now) (es ++ [.request id])).q, t ≤ e.1 + slack := by
  have hrun : run T (init now) (es ++ [.request id]) =
      setWakeup (record T id (run T (init now) es)) := by
    unfold run
    rw [List.foldl_append]
    rfl
  obtain ⟨hQ, hTm⟩ := run_inv es (init_inv T now)
  obtain ⟨hw, htk⟩ := hTm.offp hn
  have hpos := hQ.pos hT
  rw [hrun]
  generalize run T (init now) es = s at *
  have hnw : (record T id s).nextWake = 0 := by
    unfold record
    split
    · exact hw
    · unfold remove
      simp only
      rw [if_neg (by rw [htk]; simp)]
      exact hw
  have hmem : ∀ e ∈ (record T id s).q, 0 < e.1 := by
    have : ∀ e ∈ (record T id s).q, e ∈ s.q ∨ e.1 = s.now + T := by
      intro e he
      unfold record at he
      split at he
      · simp only [List.mem_append, List.mem_singleton] at he
        rcases he with he | rfl
        · exact .inl (List.mem_filter.1 he).1
        · exact .inr rfl
      · simp only [List.mem_append, List.mem_singleton] at he
        rcases he with he | rfl
        · rw [remove_q] at he
          exact .inl (List.mem_filter.1 he).1
        · right
          show (remove id s).now + T = s.now + T
          rw [remove_now]
    intro e he
    rcases this e he with h | h
    · exact hpos e h
    · omega
  have hne : (record T id s).q ≠ [] := by
    unfold record
    split <;> simp
  cases hq : (record T id s).q with
  | nil => exact absurd hq hne
  | cons e r =>
    obtain ⟨d, i⟩ := e
    have hd : 0 < d := hmem (d, i) (by rw [hq]; simp)
    have hTm' := setWakeup_timer (record_queue id hQ)
    rw [setWakeup_arms hq (by omega)] at hTm' ⊢
    exact ⟨d + slack, rfl, by simp [hq], (hTm'.on _ rfl).2.2.2⟩

example : (run 5000000 (init 1) [.request 4, .request 5]).armed = none := by decide

/-- After every run: if the ticket is deleted for which the timer is set, then
afterwards a timer is set if and only if others wait, and it is in time for
them. -/
theorem C137_delete_moves_timer_partial (T now : Nat) (hT : 0 < T) (es : List Ev) (id : Nat)
    (hid : (run T (init now) es).ticket = some id) :
    ((run T (init now) (es ++ [.message [.remove id]])).armed.isSome = true ↔
      (run T (init now) (es ++ [.message [.remove id]])).q ≠ []) ∧
    (run T (init now) (es ++ [.message [.remove id]])).q =
      (run T (init now) es).q.filter (fun e => e.2 != id) := by
  have hrun : run T (init now) (es ++ [.message [.remove id]]) = remove id (run T (init now) es) := by
    unfold run
    rw [List.foldl_append]
    rfl
  obtain ⟨hQ, _⟩ := run_inv es (init_inv T now)
  rw [hrun]
  generalize run T (init now) es = s at *
  refine ⟨?_, remove_q id s⟩
  have e : remove id s = setWakeup (off { s with q := s.q.filter (fun e => e.2 != id) }) := by
    unfold remove
    simp only
    rw [if_pos hid]
  rw [e, setWakeup_q]
  exact setWakeup_cleared hT (queue_of (s := { s with q := s.q.filter (fun e => e.2 != id) }) rfl rfl
    (filter_queue _ hQ)) rfl

example : (run 5000000 (init 1) [.request 7, .message [.record 8]]).ticket = some 7 := by decide

/-- After every run that leaves no timer set: when the reads of any key are let go,
a timer is set for those that still wait. -/
theorem C137_unblock_sets_timer_partial (T now : Nat) (hT : 0 < T) (es : List Ev) (ids : List Nat)
    (hn : (run T (init now) es).armed = none) :
    (run T (init now) (es ++ [.message [.unblock ids]])).armed.isSome = true ↔
      (run T (init now) (es ++ [.message [.unblock ids]])).q ≠ [] := by
  have hrun : run T (init now) (es ++ [.message [.unblock ids]]) = unblock ids (run T (init now) es) := by
    unfold run
    rw [List.foldl_append]
    rfl
  obtain ⟨hQ, hTm⟩ := run_inv es (init_inv T now)
  obtain ⟨_, htk⟩ := hTm.offp hn
  rw [hrun]
  generalize run T (init now) es = s at *
  have key : ∀ (ids : List Nat) (s : W), s.ticket = none → (unblockFold ids s).ticket = none := by
    intro ids
    induction ids with
    | nil => exact fun _ h => h
    | cons i ids ih =>
      intro s h
      rw [unblockFold_cons]
      refine ih _ ?_
      unfold remove
      simp only
      rw [if_neg (by rw [h]; simp)]
      exact h
  rw [unblock_eq, if_pos (key ids s htk), setWakeup_q]
  exact setWakeup_cleared hT (queue_of (s := unblockFold ids s) rfl rfl (unblockFold_queue ids hQ)) rfl

example : (run 5000000 (init 1) [.request 7, .request 8, .message [.unblock [7]]]).armed =
    some 5010001 := by decide

/-- Whenever a timer is set for the front of the queue, the next new request turns
it off, and leaves the queue longer than before: nothing will wake the node for
any of them. -/
theorem C137_second_request_counterexample (T : Nat) (s : W) (d i : Nat) (r : List (Nat × Nat))
    (hq : s.q = (d, i) :: r) (ha : s.armed = some (d + slack)) (hw : s.nextWake = d + slack)
    (ht : s.ticket = some i) (id : Nat) (hid : ∀ e ∈ s.q, e.2 ≠ id) :
    (step T s (.request id)).armed = none ∧
    (step T s (.request id)).q = s.q ++ [(s.now + T, id)] ∧ s.armed ≠ none := by
  have hti : s.ticket ≠ some id := by
    rw [ht]
    intro h
    cases h
    exact hid (d, i) (by rw [hq]; simp) rfl
  have : step T s (.request id) = setWakeup (record T id s) := rfl
  rw [this, record_fresh hid hti, setWakeup_disarms (d := d) (i := i) (r := r ++ [(s.now + T, id)])]
  · exact ⟨rfl, rfl, by rw [ha]; simp⟩
  · show s.q ++ _ = _
    rw [hq]
    rfl
  · show d ≤ s.nextWake
    rw [hw]
    omega

example : run 5000000 (init 1) [.request 7] =
    ⟨1, [(5000001, 7)], some (5000001 + slack), 5000001 + slack, some 7⟩ := by decide

/-- Requests one after the other, with time in between. -/
def requests (l : List (Nat × Nat)) : List Ev :=
  l.flatMap (fun p => [Ev.tick p.1, Ev.request p.2])

/-- The state between two of them: `b` says whether a timer is set. -/
def Between (b : Bool) (s : W) : Prop :=
  ∃ d i r, s.q = (d, i) :: r ∧ 0 < d ∧
    if b then s.armed = some (d + slack) ∧ s.nextWake = d + slack ∧ s.ticket = some i
    else s.armed = none ∧ s.nextWake = 0 ∧ s.ticket = none

theorem between_step {T : Nat} {b : Bool} {s : W} (h : Between b s) (dt id : Nat)
    (hid : ∀ e ∈ s.q, e.2 ≠ id) :
    Between (!b) (run T s [.tick dt, .request id]) ∧
    (run T s [.tick dt, .request id]).q = s.q ++ [(s.now + dt + T, id)] := by
  obtain ⟨d, i, r, hq, hd, hb⟩ := h
  have e1 : run T s [.tick dt, .request id] = setWakeup (record T id { s with now := s.now + dt }) := rfl
  have hti : s.ticket ≠ some id := by
    cases b with
    | true =>
      rw [if_pos rfl] at hb
      rw [hb.2.2]
      intro h
      exact hid (d, i) (by rw [hq]; simp) (Option.some.inj h)
    | false =>
      rw [if_neg (by simp)] at hb
      rw [hb.2.2]
      simp
  have hq' : s.q ++ [(s.now + dt + T, id)] = (d, i) :: (r ++ [(s.now + dt + T, id)]) := by
    rw [hq]; rfl
  rw [e1, record_fresh (s := { s with now := s.now + dt }) hid hti]
  cases b with
  | true =>
    rw [if_pos rfl] at hb
    rw [setWakeup_disarms (s := ⟨s.now + dt, s.q ++ [(s.now + dt + T, id)], s.armed, s.nextWake, s.ticket⟩)
      (d := d) (i := i) hq' (show d ≤ s.nextWake by omega)]
    exact ⟨⟨d, i, _, hq', hd, rfl, rfl, rfl⟩, rfl⟩
  | false =>
    rw [if_neg (by simp)] at hb
    rw [setWakeup_arms (s := ⟨s.now + dt, s.q ++ [(s.now + dt + T, id)], s.armed, s.nextWake, s.ticket⟩)
      (d := d) (i := i) hq' (show s.nextWake < d by omega)]
    exact ⟨⟨d, i, _, hq', hd, rfl, rfl, rfl⟩, rfl⟩

theorem between_run {T : Nat} (l : List (Nat × Nat)) : ∀ {b : Bool} {s : W}, Between b s →
    (l.map Prod.snd).Nodup → (∀ p ∈ l, ∀ e ∈ s.q, e.2 ≠ p.2) →
    Between (if l.length % 2 = 0 then b else !b) (run T s (requests l)) ∧
    (run T s (requests l)).q.length = s.q.length + l.length := by
  induction l with
  | nil => exact fun h _ _ => ⟨h, rfl⟩
  | cons p l ih =>
    intro b s h hnd hid
    obtain ⟨h1, h2⟩ := between_step (T := T) h p.1 p.2 (hid p (by simp))
    rw [List.map_cons, List.nodup_cons] at hnd
    have e : run T s (requests (p :: l)) = run T (run T s [.tick p.1, .request p.2]) (requests l) := by
      unfold run requests
      rw [List.flatMap_cons, List.foldl_append]
    obtain ⟨a, c⟩ := ih h1 hnd.2 (by
      intro x hx e he
      rw [h2, List.mem_append, List.mem_singleton] at he
      rcases he with he | rfl
      · exact hid x (List.mem_cons_of_mem _ hx) e he
      · intro hxp
        simp only at hxp
        exact hnd.1 (hxp ▸ List.mem_map_of_mem hx))
    rw [e]
    refine ⟨?_, ?_⟩
    · rw [List.length_cons]
      rcases Nat.mod_two_eq_zero_or_one l.length with hl | hl
      · rw [if_pos hl] at a
        rw [if_neg (by omega)]
        exact a
      · rw [if_neg (by omega)] at a
        rw [if_pos (by omega)]
        rw [Bool.not_not] at a
        exact a
    · rw [c, h2]
      simp only [List.length_append, List.length_cons, List.length_nil]
      omega

/-- From the start, any number of different requests that have to wait, at any
times: all are in the queue, and a timer is set if and only if their number is
odd. -/
theorem C137_parity_counterexample (T now : Nat) (hT : 0 < T) (l : List (Nat × Nat))
    (hnd : (l.map Prod.snd).Nodup) :
    (run T (init now) (requests l)).q.length = l.length ∧
    ((run T (init now) (requests l)).armed.isSome = true ↔ l.length % 2 = 1) := by
  cases l with
  | nil => exact ⟨rfl, by simp [requests, run, init]⟩
  | cons p l =>
    have e : run T (init now) (requests (p :: l)) =
        run T (run T (init now) [.tick p.1, .request p.2]) (requests l) := by
      unfold run requests
      rw [List.flatMap_cons, List.foldl_append]
    have e1 : run T (init now) [.tick p.1, .request p.2] =
        ⟨now + p.1, [(now + p.1 + T, p.2)], some (now + p.1 + T + slack), now + p.1 + T + slack, some p.2⟩ := by
      show setWakeup (record T p.2 { init now with now := now + p.1 }) = _
      rw [record_fresh (fun _ h => absurd h (by simp [init])) (by simp [init]),
        setWakeup_arms (d := now + p.1 + T) (i := p.2) (r := []) rfl (by show 0 < _; omega)]
      rfl
    rw [List.map_cons, List.nodup_cons] at hnd
    rw [e, e1]
    obtain ⟨a, c⟩ := between_run (T := T) (b := true) l
      (s := ⟨now + p.1, [(now + p.1 + T, p.2)], some (now + p.1 + T + slack), now + p.1 + T + slack, some p.2⟩)
      ⟨now + p.1 + T, p.2, [], rfl, by omega, rfl, rfl, rfl⟩ hnd.2 (by
        intro x hx y hy
        have hy : y ∈ [(now + p.1 + T, p.2)] := hy
        simp only [List.mem_singleton] at hy
        subst hy
        intro h
        exact hnd.1 (show p.2 ∈ l.map Prod.snd from (show p.2 = x.2 from h) ▸ List.mem_map_of_mem hx))
    refine ⟨by rw [c]; simp only [List.length_cons, List.length_nil]; omega, ?_⟩
    obtain ⟨d, i, r, _, _, hb⟩ := a
    rw [List.length_cons]
    rcases Nat.mod_two_eq_zero_or_one l.length with hl | hl
    · rw [if_pos hl, if_pos rfl] at hb
      rw [hb.1]
      simp
      omega
    · have e0 : (if l.length % 2 = 0 then true else !true) = false := by
        rw [if_neg (by omega)]
        rfl
      rw [e0, if_neg (by simp)] at hb
      rw [hb.1]
      simp
      omega

example : ((([(5, 1), (7, 2), (0, 3)] : List (Nat × Nat)).map Prod.snd)).Nodup := by decide

/-- Two requests wait, no timer is set, and nothing but time goes on (their
coordinator has failed, say): they wait for ever. -/
theorem C137_two_waiting_counterexample (T now : Nat) (hT : 0 < T) (d1 d2 i j : Nat) (hij : i ≠ j)
    (es : List Ev) (hes : ∀ e ∈ es, (∃ dt, e = .tick dt) ∨ ∃ h, e = .wake h) :
    (run T (init now) (requests [(d1, i), (d2, j)] ++ es)).armed = none ∧
    (run T (init now) (requests [(d1, i), (d2, j)] ++ es)).q.length = 2 := by
  obtain ⟨hl, ha⟩ := C137_parity_counterexample T now hT [(d1, i), (d2, j)] (by simp [hij])
  have hn : (run T (init now) (requests [(d1, i), (d2, j)])).armed = none := by
    cases h : (run T (init now) (requests [(d1, i), (d2, j)])).armed with
    | none => rfl
    | some t =>
      rw [h] at ha
      simp at ha
  have e : run T (init now) (requests [(d1, i), (d2, j)] ++ es) =
      run T (run T (init now) (requests [(d1, i), (d2, j)])) es := by
    unfold run
    rw [List.foldl_append]
  rw [e]
  generalize run T (init now) (requests [(d1, i), (d2, j)]) = s at *
  have key : ∀ (es : List Ev) (s : W), (∀ e ∈ es, (∃ dt, e = .tick dt) ∨ ∃ h, e = .wake h) →
      s.armed = none → (run T s es).armed = none ∧ (run T s es).q = s.q := by
    intro es
    induction es with
    | nil => exact fun s _ h => ⟨h, rfl⟩
    | cons x es ih =>
      intro s hes hs
      have e : run T s (x :: es) = run T (step T s x) es := rfl
      have hx : (step T s x).armed = none ∧ (step T s x).q = s.q := by
        rcases hes x (by simp) with ⟨dt, rfl⟩ | ⟨h, rfl⟩
        · exact ⟨hs, rfl⟩
        · have : step T s (.wake h) = s := by
            unfold step
            simp only [hs]
          rw [this]
          exact ⟨hs, rfl⟩
      obtain ⟨a, b⟩ := ih (step T s x) (fun y hy => hes y (List.mem_cons_of_mem _ hy)) hx.1
      rw [e]
      exact ⟨a, b.trans hx.2⟩
  obtain ⟨a, b⟩ := key es s hes hn
  exact ⟨a, by rw [b]; exact hl⟩

/-- So the full statement is false for every timeout. -/
theorem C137_counterexample (T : Nat) (hT : 0 < T) : ¬ C137_full T := by
  intro h
  obtain ⟨a, b⟩ := C137_two_waiting_counterexample T 0 hT 0 0 1 2 (by decide) [] (fun _ h => (nomatch h))
  rw [List.append_nil] at a b
  obtain ⟨t, ht, _⟩ := h 0 (requests [(0, 1), (0, 2)]) (by
    intro hq
    rw [hq] at b
    cases b)
  rw [a] at ht
  cases ht

/-- An acknowledgement that is recorded before its invalidation has come sets no
timer, at any time. -/
theorem C137_ack_counterexample (T : Nat) (s : W) (id : Nat) (hn : s.armed = none)
    (hid : ∀ e ∈ s.q, e.2 ≠ id) (ht : s.ticket = none) :
    (step T s (.message [.record id])).armed = none ∧
    (s.now + T, id) ∈ (step T s (.message [.record id])).q := by
  have : step T s (.message [.record id]) = record T id s := rfl
  rw [this, record_fresh hid (by rw [ht]; simp)]
  exact ⟨hn, by simp⟩

example : (init 3).armed = none ∧ (init 3).ticket = none ∧ ∀ e ∈ (init 3).q, e.2 ≠ 4 := by decide

/-- A timer that fires, where the handlers only drop a ticket or record it again:
afterwards a timer is set if and only if something waits, and it is in time. -/
theorem C137_wake_sets_timer_partial (T now : Nat) (hT : 0 < T) (es : List Ev) (t : Nat)
    (ht : (run T (init now) es).armed = some t) (htn : t ≤ (run T (init now) es).now)
    (h : Nat → List Op) (hh : ∀ i, h i = [] ∨ h i = [Op.record i]) :
    (run T (init now) (es ++ [.wake h])).armed.isSome = true ↔
    (run T (init now) (es ++ [.wake h])).q ≠ [] := by
  obtain ⟨hQ, hTm⟩ := run_inv es (init_inv T now)
  have e : run T (init now) (es ++ [.wake h]) = fire T h (run T (init now) es) := by
    have : run T (init now) (es ++ [.wake h]) = step T (run T (init now) es) (.wake h) := by
      unfold run
      rw [List.foldl_append]
      rfl
    rw [this]
    unfold step
    simp only [ht]
    rw [if_pos htn]
  rw [e]
  generalize run T (init now) es = s at *
  obtain ⟨hw, _⟩ := hTm.on t ht
  unfold fire
  obtain ⟨a, b, c, d⟩ := fireLoop_quiet hT h hh s.q.length (s := { s with armed := none, ticket := none })
    rfl (List.length_filter_le _ _)
  generalize fireLoop T h s.q.length { s with armed := none, ticket := none } = f at *
  rw [setWakeup_q]
  cases hq : f.q with
  | nil =>
    have : setWakeup f = off f := by
      unfold setWakeup
      rw [hq]
    rw [this]
    simp [off]
  | cons x r =>
    obtain ⟨d0, i0⟩ := x
    have h1 := d d0 i0 r hq
    simp only at h1 b
    rw [setWakeup_arms hq (by omega)]
    simp

example : (run 5000000 (init 1) [.request 7, .tick 6000000]).armed = some 5010001 ∧
    5010001 ≤ (run 5000000 (init 1) [.request 7, .tick 6000000]).now := by decide

/-- A timer that fires for a ticket whose handler lets the reads of its key go (a
replay has timed out), while others wait whose deadlines are still to come:
afterwards they have no timer. -/
theorem C137_wake_unblock_counterexample (T : Nat) (s : W) (d i d' j : Nat) (r : List (Nat × Nat))
    (t : Nat) (ha : s.armed = some t) (ht : t ≤ s.now) (hq : s.q = (d, i) :: (d', j) :: r)
    (hd : d ≤ s.now) (hd' : s.now < d') (h : Nat → List Op) (hh : h i = [Op.unblock []]) :
    (step T s (.wake h)).armed = none ∧ (step T s (.wake h)).q = (d', j) :: r := by
  have e : step T s (.wake h) = fire T h s := by
    unfold step
    simp only [ha]
    rw [if_pos ht]
  have l1 : fireLoop T h s.q.length { s with armed := none, ticket := none } =
      fireLoop T h (r.length + 1)
        (ops T (h i) { s with armed := none, ticket := none, q := (d', j) :: r }) := by
    rw [show s.q.length = r.length + 1 + 1 by rw [hq]; rfl]
    rw [fireLoop]
    simp only [hq]
    rw [if_neg (by omega)]
  have l2 : ops T (h i) { s with armed := none, ticket := none, q := (d', j) :: r } =
      ⟨s.now, (d', j) :: r, some (d' + slack), d' + slack, some j⟩ := by
    rw [hh]
    show unblock [] { s with armed := none, ticket := none, q := (d', j) :: r } = _
    rw [unblock_eq]
    have hu : unblockFold [] { s with armed := none, ticket := none, q := (d', j) :: r } =
        { s with armed := none, ticket := none, q := (d', j) :: r } := rfl
    rw [hu, if_pos rfl]
    rw [setWakeup_arms (d := d') (i := j) (r := r) rfl (by show 0 < d'; omega)]
  have l3 : fireLoop T h (r.length + 1) ⟨s.now, (d', j) :: r, some (d' + slack), d' + slack, some j⟩ =
      ⟨s.now, (d', j) :: r, some (d' + slack), d' + slack, some j⟩ := by
    rw [fireLoop]
    simp only
    rw [if_pos hd']
  rw [e]
  unfold fire
  rw [l1, l2, l3, setWakeup_disarms (d := d') (i := j) (r := r) rfl (by show d' ≤ d' + slack; omega)]
  exact ⟨rfl, rfl⟩

example : run 5000000 (init 1) [.request 7, .tick 20000, .message [.record 8], .tick 4990000] =
    ⟨5010001, [(5000001, 7), (5020001, 8)], some 5010001, 5010001, some 7⟩ := by decide

end Verif.HermesWake

import Verif.Model.HermesWake

/-! Lemmas on the timer of a Hermes node. -/

namespace Verif.HermesWake

/-- The queue is in the order of the deadlines, and none is further away than the
timeout. -/
structure Queue (T : Nat) (s : W) : Prop where
  sorted : s.q.Pairwise (fun a b => a.1 ≤ b.1)
  le : ∀ e ∈ s.q, e.1 ≤ s.now + T
  pos : 0 < T → ∀ e ∈ s.q, 0 < e.1

/-- A timer that is set is in time for all deadlines; the fields agree. -/
structure Timer (T : Nat) (s : W) : Prop where
  on : ∀ t, s.armed = some t →
    s.nextWake = t ∧ s.ticket ≠ none ∧ t ≤ s.now + T + slack ∧ ∀ e ∈ s.q, t ≤ e.1 + slack
  offp : s.armed = none → s.nextWake = 0 ∧ s.ticket = none

theorem setWakeup_q (s : W) : (setWakeup s).q = s.q := by
  unfold setWakeup
  split
  · rfl
  · split <;> rfl

theorem setWakeup_now (s : W) : (setWakeup s).now = s.now := by
  unfold setWakeup
  split
  · rfl
  · split <;> rfl

theorem setWakeup_timer {T : Nat} {s : W} (h : Queue T s) : Timer T (setWakeup s) := by
  obtain ⟨hs, hl, _⟩ := h
  unfold setWakeup
  split
  · exact ⟨fun t ht => (nomatch ht), fun _ => ⟨rfl, rfl⟩⟩
  · rename_i d i r hq
    split
    · refine ⟨fun t ht => ?_, fun ht => (nomatch ht)⟩
      cases ht
      rw [hq] at hs hl
      refine ⟨rfl, (by simp), ?_, ?_⟩
      · have := hl (d, i) (by simp)
        show d + slack ≤ s.now + T + slack
        omega
      · intro e he
        simp only [hq, List.mem_cons] at he
        rcases he with rfl | he
        · exact Nat.le_refl _
        · have := (List.pairwise_cons.1 hs).1 e he
          simp only at this
          omega
    · exact ⟨fun t ht => (nomatch ht), fun _ => ⟨rfl, rfl⟩⟩

theorem setWakeup_queue {T : Nat} {s : W} (h : Queue T s) : Queue T (setWakeup s) :=
  ⟨by rw [setWakeup_q]; exact h.sorted, by rw [setWakeup_q, setWakeup_now]; exact h.le,
    by rw [setWakeup_q]; exact h.pos⟩

/-- Only the queue and the clock matter. -/
theorem queue_of {T : Nat} {s s' : W} (hq : s'.q = s.q) (hn : s'.now = s.now) (h : Queue T s) :
    Queue T s' :=
  ⟨by rw [hq]; exact h.sorted, by rw [hq, hn]; exact h.le, by rw [hq]; exact h.pos⟩

theorem filter_queue {T : Nat} {s : W} (p : Nat × Nat → Bool) (h : Queue T s) :
    Queue T { s with q := s.q.filter p } :=
  ⟨h.sorted.filter _, fun e he => h.le e (List.mem_filter.1 he).1,
    fun hT e he => h.pos hT e (List.mem_filter.1 he).1⟩

theorem append_queue {T : Nat} {s : W} (id : Nat) (h : Queue T s) :
    Queue T { s with q := s.q ++ [(s.now + T, id)] } := by
  refine ⟨?_, ?_, ?_⟩
  · refine List.pairwise_append.2 ⟨h.sorted, by simp, ?_⟩
    intro a ha b hb
    simp only [List.mem_singleton] at hb
    subst hb
    exact h.le a ha
  · intro e he
    simp only [List.mem_append, List.mem_singleton] at he
    rcases he with he | rfl
    · exact h.le e he
    · exact Nat.le_refl _
  · intro hT e he
    simp only [List.mem_append, List.mem_singleton] at he
    rcases he with he | rfl
    · exact h.pos hT e he
    · show 0 < s.now + T
      omega

theorem remove_q (id : Nat) (s : W) : (remove id s).q = s.q.filter (fun e => e.2 != id) := by
  unfold remove
  simp only
  split
  · rw [setWakeup_q]; rfl
  · rfl

theorem remove_now (id : Nat) (s : W) : (remove id s).now = s.now := by
  unfold remove
  simp only
  split
  · rw [setWakeup_now]; rfl
  · rfl

theorem remove_queue {T : Nat} {s : W} (id : Nat) (h : Queue T s) : Queue T (remove id s) :=
  queue_of (s := { s with q := s.q.filter (fun e => e.2 != id) }) (remove_q id s) (remove_now id s)
    (filter_queue _ h)

theorem filter_timer {T : Nat} {s : W} (p : Nat × Nat → Bool) (h : Timer T s) :
    Timer T { s with q := s.q.filter p } :=
  ⟨fun t ht => by
    obtain ⟨a, b, c, d⟩ := h.on t ht
    exact ⟨a, b, c, fun e he => d e (List.mem_filter.1 he).1⟩, h.offp⟩

theorem append_timer {T : Nat} {s : W} (id : Nat) (h : Timer T s) :
    Timer T { s with q := s.q ++ [(s.now + T, id)] } :=
  ⟨fun t ht => by
    obtain ⟨a, b, c, d⟩ := h.on t ht
    refine ⟨a, b, c, fun e he => ?_⟩
    simp only [List.mem_append, List.mem_singleton] at he
    rcases he with he | rfl
    · exact d e he
    · exact c, h.offp⟩

theorem remove_timer {T : Nat} {s : W} (id : Nat) (h : Queue T s) (ht : Timer T s) :
    Timer T (remove id s) := by
  unfold remove
  simp only
  split
  · exact setWakeup_timer (queue_of (s := { s with q := s.q.filter (fun e => e.2 != id) }) rfl rfl (filter_queue _ h))
  · exact filter_timer _ ht

/-- After `deleteTicket` the timer is not for the ticket deleted. -/
theorem remove_ticket (id : Nat) (s : W) : (remove id s).ticket ≠ some id := by
  unfold remove
  simp only
  split
  · unfold setWakeup
    split
    · simp [off]
    · rename_i d i r hq
      have : (d, i) ∈ s.q.filter (fun e => e.2 != id) := by
        simp only [off] at hq
        rw [hq]; simp
      have := (List.mem_filter.1 this).2
      split
      · simpa using this
      · simp [off]
  · assumption

theorem record_queue {T : Nat} {s : W} (id : Nat) (h : Queue T s) : Queue T (record T id s) := by
  unfold record
  split
  · exact append_queue (s := { s with q := s.q.filter (fun e => e.2 != id) }) id (filter_queue _ h)
  · exact append_queue id (remove_queue id h)

theorem record_timer {T : Nat} {s : W} (id : Nat) (h : Queue T s) (ht : Timer T s) :
    Timer T (record T id s) := by
  unfold record
  split
  · exact append_timer (s := { s with q := s.q.filter (fun e => e.2 != id) }) id (filter_timer _ ht)
  · exact append_timer id (remove_timer id h ht)

/-- The fold of `unblock`. -/
def unblockFold (ids : List Nat) (s : W) : W :=
  ids.foldl (fun s id =>
    let s2 := remove id s
    if s2.ticket = some id then { s2 with ticket := none } else s2) s

theorem unblockFold_cons (i : Nat) (ids : List Nat) (s : W) :
    unblockFold (i :: ids) s = unblockFold ids (remove i s) := by
  unfold unblockFold
  rw [List.foldl_cons]
  simp only
  rw [if_neg (remove_ticket i s)]

theorem unblock_eq (ids : List Nat) (s : W) : unblock ids s =
    if (unblockFold ids s).ticket = none then
      setWakeup { unblockFold ids s with armed := none, nextWake := 0 }
    else unblockFold ids s := rfl

theorem unblockFold_queue {T : Nat} (ids : List Nat) : ∀ {s : W}, Queue T s →
    Queue T (unblockFold ids s) := by
  induction ids with
  | nil => exact fun h => h
  | cons i ids ih =>
    intro s h
    rw [unblockFold_cons]
    exact ih (remove_queue i h)

theorem unblockFold_timer {T : Nat} (ids : List Nat) : ∀ {s : W}, Queue T s → Timer T s →
    Timer T (unblockFold ids s) := by
  induction ids with
  | nil => exact fun _ h => h
  | cons i ids ih =>
    intro s h ht
    rw [unblockFold_cons]
    exact ih (remove_queue i h) (remove_timer i h ht)

theorem unblock_queue {T : Nat} {s : W} (ids : List Nat) (h : Queue T s) :
    Queue T (unblock ids s) := by
  rw [unblock_eq]
  split
  · exact setWakeup_queue (queue_of (s := unblockFold ids s) rfl rfl (unblockFold_queue ids h))
  · exact unblockFold_queue ids h

theorem unblock_timer {T : Nat} {s : W} (ids : List Nat) (h : Queue T s) (ht : Timer T s) :
    Timer T (unblock ids s) := by
  rw [unblock_eq]
  split
  · exact setWakeup_timer (queue_of (s := unblockFold ids s) rfl rfl (unblockFold_queue ids h))
  · exact unblockFold_timer ids h ht

theorem op_queue {T : Nat} {s : W} (o : Op) (h : Queue T s) : Queue T (op T o s) := by
  cases o with
  | record id => exact record_queue id h
  | remove id => exact remove_queue id h
  | unblock ids => exact unblock_queue ids h

theorem op_timer {T : Nat} {s : W} (o : Op) (h : Queue T s) (ht : Timer T s) :
    Timer T (op T o s) := by
  cases o with
  | record id => exact record_timer id h ht
  | remove id => exact remove_timer id h ht
  | unblock ids => exact unblock_timer ids h ht

theorem ops_queue {T : Nat} (os : List Op) : ∀ {s : W}, Queue T s → Queue T (ops T os s) := by
  induction os with
  | nil => exact fun h => h
  | cons o os ih => exact fun h => ih (op_queue o h)

theorem ops_timer {T : Nat} (os : List Op) : ∀ {s : W}, Queue T s → Timer T s →
    Timer T (ops T os s) := by
  induction os with
  | nil => exact fun _ h => h
  | cons o os ih => exact fun h ht => ih (op_queue o h) (op_timer o h ht)

theorem tail_queue {T : Nat} {s : W} {e : Nat × Nat} {r : List (Nat × Nat)} (hq : s.q = e :: r)
    (h : Queue T s) : Queue T { s with q := r } := by
  obtain ⟨a, b, c⟩ := h
  rw [hq] at a b c
  exact ⟨(List.pairwise_cons.1 a).2, fun x hx => b x (List.mem_cons_of_mem _ hx),
    fun hT x hx => c hT x (List.mem_cons_of_mem _ hx)⟩

theorem fireLoop_queue {T : Nat} (h : Nat → List Op) (n : Nat) : ∀ {s : W}, Queue T s →
    Queue T (fireLoop T h n s) := by
  induction n with
  | zero => exact fun hs => hs
  | succ n ih =>
    intro s hs
    unfold fireLoop
    split
    · exact hs
    · rename_i d i r hq
      split
      · exact hs
      · exact ih (ops_queue _ (tail_queue hq hs))

theorem fire_queue {T : Nat} {s : W} (h : Nat → List Op) (hs : Queue T s) :
    Queue T (fire T h s) :=
  setWakeup_queue (fireLoop_queue h _ (queue_of (s := s) rfl rfl hs))

theorem fire_timer {T : Nat} {s : W} (h : Nat → List Op) (hs : Queue T s) :
    Timer T (fire T h s) :=
  setWakeup_timer (fireLoop_queue h _ (queue_of (s := s) rfl rfl hs))

theorem step_inv {T : Nat} {s : W} (e : Ev) (h : Queue T s ∧ Timer T s) :
    Queue T (step T s e) ∧ Timer T (step T s e) := by
  obtain ⟨hq, ht⟩ := h
  cases e with
  | tick dt =>
    refine ⟨⟨hq.sorted, fun e he => ?_, hq.pos⟩, ⟨fun t h => ?_, ht.offp⟩⟩
    · have := hq.le e he
      show e.1 ≤ s.now + dt + T
      omega
    · obtain ⟨a, b, c, d⟩ := ht.on t h
      refine ⟨a, b, ?_, d⟩
      show t ≤ s.now + dt + T + slack
      omega
  | request id =>
    exact ⟨setWakeup_queue (record_queue id hq), setWakeup_timer (record_queue id hq)⟩
  | poke => exact ⟨setWakeup_queue hq, setWakeup_timer hq⟩
  | message os => exact ⟨ops_queue os hq, ops_timer os hq ht⟩
  | wake h =>
    show Queue T (match s.armed with
      | none => s
      | some t => if t ≤ s.now then fire T h s else s) ∧ Timer T (match s.armed with
      | none => s
      | some t => if t ≤ s.now then fire T h s else s)
    split
    · exact ⟨hq, ht⟩
    · split
      · exact ⟨fire_queue h hq, fire_timer h hq⟩
      · exact ⟨hq, ht⟩

theorem run_inv {T : Nat} (es : List Ev) : ∀ {s : W}, Queue T s ∧ Timer T s →
    Queue T (run T s es) ∧ Timer T (run T s es) := by
  induction es with
  | nil => exact fun h => h
  | cons e es ih => exact fun h => ih (step_inv e h)

theorem init_inv (T now : Nat) : Queue T (init now) ∧ Timer T (init now) :=
  ⟨⟨List.Pairwise.nil, fun _ h => (nomatch h), fun _ _ h => (nomatch h)⟩, ⟨fun _ h => (nomatch h), fun _ => ⟨rfl, rfl⟩⟩⟩

/-- A new ticket is put at the end. -/
theorem record_fresh {T id : Nat} {s : W} (hf : ∀ e ∈ s.q, e.2 ≠ id) (ht : s.ticket ≠ some id) :
    record T id s = { s with q := s.q ++ [(s.now + T, id)] } := by
  have hfil : s.q.filter (fun e => e.2 != id) = s.q := by
    rw [List.filter_eq_self]
    intro a ha
    simpa using hf a ha
  have hrem : remove id s = s := by
    unfold remove
    simp only [hfil]
    rw [if_neg ht]
  unfold record
  rw [if_neg, hrem]
  simp only [List.any_eq_true, not_exists]
  intro a ha
  have := hf a ha.1
  simp [this] at ha

theorem setWakeup_arms {s : W} {d i : Nat} {r : List (Nat × Nat)} (hq : s.q = (d, i) :: r)
    (hd : s.nextWake < d) :
    setWakeup s = { s with nextWake := d + slack, armed := some (d + slack), ticket := some i } := by
  unfold setWakeup
  split
  · rename_i h
    rw [hq] at h
    cases h
  · rename_i d' i' r' h
    rw [hq] at h
    cases h
    rw [if_pos ⟨by omega, hd⟩]

theorem setWakeup_disarms {s : W} {d i : Nat} {r : List (Nat × Nat)} (hq : s.q = (d, i) :: r)
    (hd : d ≤ s.nextWake) : setWakeup s = off s := by
  unfold setWakeup
  split
  · rfl
  · rename_i d' i' r' h
    rw [hq] at h
    cases h
    rw [if_neg (by omega)]

/-- Handlers that drop a ticket or record it again. -/
theorem ops_quiet {T : Nat} {os : List Op} {i : Nat} (h : os = [] ∨ os = [Op.record i]) {s : W}
    (ht : s.ticket = none) :
    (ops T os s).ticket = none ∧ (ops T os s).nextWake = s.nextWake ∧ (ops T os s).now = s.now := by
  rcases h with rfl | rfl
  · exact ⟨ht, rfl, rfl⟩
  · show (record T i s).ticket = none ∧ (record T i s).nextWake = s.nextWake ∧ (record T i s).now = s.now
    unfold record
    split
    · exact ⟨ht, rfl, rfl⟩
    · have : remove i s = { s with q := s.q.filter (fun e => e.2 != i) } := by
        unfold remove
        simp only
        rw [if_neg (by rw [ht]; simp)]
      rw [this]
      exact ⟨ht, rfl, rfl⟩

/-- How many tickets are past their deadline. -/
def expired (s : W) : Nat := (s.q.filter (fun e => decide (e.1 ≤ s.now))).length

theorem expired_pop {s : W} {d i : Nat} {r : List (Nat × Nat)} (hq : s.q = (d, i) :: r)
    (hd : d ≤ s.now) : expired { s with q := r } + 1 = expired s := by
  unfold expired
  rw [hq, List.filter_cons, if_pos (by simpa using hd)]
  rfl

theorem expired_quiet {T : Nat} (hT : 0 < T) {os : List Op} {i : Nat}
    (h : os = [] ∨ os = [Op.record i]) {s : W} (ht : s.ticket = none) :
    expired (ops T os s) ≤ expired s := by
  have key : ∀ p : Nat × Nat → Bool,
      ((s.q.filter p).filter (fun e => decide (e.1 ≤ s.now))).length ≤
        (s.q.filter (fun e => decide (e.1 ≤ s.now))).length :=
    fun p => ((List.filter_sublist (p := p)).filter _).length_le
  rcases h with rfl | rfl
  · exact Nat.le_refl _
  · show expired (record T i s) ≤ expired s
    have hnew : decide (s.now + T ≤ s.now) = false := by simp; omega
    unfold record
    split
    · unfold expired
      simp only [List.filter_append, List.filter_cons, hnew]
      simpa using key _
    · have : remove i s = { s with q := s.q.filter (fun e => e.2 != i) } := by
        unfold remove
        simp only
        rw [if_neg (by rw [ht]; simp)]
      rw [this]
      unfold expired
      simp only [List.filter_append, List.filter_cons, hnew]
      simpa using key _

theorem fireLoop_quiet {T : Nat} (hT : 0 < T) (h : Nat → List Op)
    (hh : ∀ i, h i = [] ∨ h i = [Op.record i]) (n : Nat) : ∀ {s : W}, s.ticket = none →
    expired s ≤ n →
    (fireLoop T h n s).ticket = none ∧ (fireLoop T h n s).nextWake = s.nextWake ∧
    (fireLoop T h n s).now = s.now ∧
    ∀ d i r, (fireLoop T h n s).q = (d, i) :: r → s.now < d := by
  induction n with
  | zero =>
    intro s ht he
    refine ⟨ht, rfl, rfl, ?_⟩
    intro d i r hq
    by_cases hd : s.now < d
    · exact hd
    · have := expired_pop (s := s) hq (by omega)
      omega
  | succ n ih =>
    intro s ht he
    unfold fireLoop
    split
    · rename_i hq
      refine ⟨ht, rfl, rfl, ?_⟩
      intro d i r hq'
      rw [hq] at hq'
      cases hq'
    · rename_i d i r hq
      split
      · rename_i hd
        refine ⟨ht, rfl, rfl, ?_⟩
        intro d' i' r' hq'
        rw [hq] at hq'
        cases hq'
        exact hd
      · rename_i hd
        have hp := expired_pop (s := s) hq (by omega)
        have hx := expired_quiet hT (hh i) (s := { s with q := r }) ht
        obtain ⟨a, b, c⟩ := ops_quiet (T := T) (hh i) (s := { s with q := r }) ht
        obtain ⟨a', b', c', d'⟩ := ih a (by omega)
        refine ⟨a', b'.trans b, c'.trans c, ?_⟩
        intro d1 i1 r1 hq1
        have := d' d1 i1 r1 hq1
        rw [c] at this
        exact this

/-- With the time of the timer cleared, `setWakeup` sets one if and only if
something waits. -/
theorem setWakeup_cleared {T : Nat} (hT : 0 < T) {s : W} (h : Queue T s) (hw : s.nextWake = 0) :
    (setWakeup s).armed.isSome = true ↔ s.q ≠ [] := by
  cases hq : s.q with
  | nil =>
    have : setWakeup s = off s := by
      unfold setWakeup
      rw [hq]
    rw [this]
    simp [off]
  | cons e r =>
    obtain ⟨d, i⟩ := e
    have : 0 < d := h.pos hT (d, i) (by rw [hq]; simp)
    rw [setWakeup_arms hq (by omega)]
    simp

/-- No ticket is in the queue twice. -/
def Uniq (s : W) : Prop := s.q.Pairwise (fun a b => a.2 ≠ b.2)

theorem uniq_of {s s' : W} (hq : s'.q = s.q) (h : Uniq s) : Uniq s' := by
  unfold Uniq
  rw [hq]
  exact h

theorem remove_uniq (id : Nat) {s : W} (h : Uniq s) : Uniq (remove id s) := by
  unfold Uniq
  rw [remove_q]
  exact List.Pairwise.filter _ h

theorem append_uniq {q : List (Nat × Nat)} (id d : Nat) (h : q.Pairwise (fun a b => a.2 ≠ b.2)) :
    (q.filter (fun e => e.2 != id) ++ [(d, id)]).Pairwise (fun a b => a.2 ≠ b.2) := by
  refine List.pairwise_append.2 ⟨List.Pairwise.filter _ h, by simp, ?_⟩
  intro a ha b hb
  simp only [List.mem_singleton] at hb
  subst hb
  simpa using (List.mem_filter.1 ha).2

theorem op_uniq {T : Nat} (o : Op) {s : W} (h : Uniq s) : Uniq (op T o s) := by
  cases o with
  | record id =>
    show Uniq (record T id s)
    unfold record
    split
    · exact append_uniq id _ h
    · show ((remove id s).q ++ _).Pairwise _
      rw [remove_q]
      exact append_uniq id _ h
  | remove id => exact remove_uniq id h
  | unblock ids =>
    show Uniq (unblock ids s)
    have key : ∀ (ids : List Nat) {s : W}, Uniq s → Uniq (unblockFold ids s) := by
      intro ids
      induction ids with
      | nil => exact fun h => h
      | cons i ids ih =>
        intro s h
        rw [unblockFold_cons]
        exact ih (remove_uniq i h)
    rw [unblock_eq]
    split
    · exact uniq_of (setWakeup_q _) (key ids h)
    · exact key ids h

theorem ops_uniq {T : Nat} (os : List Op) : ∀ {s : W}, Uniq s → Uniq (ops T os s) := by
  induction os with
  | nil => exact fun h => h
  | cons o os ih => exact fun h => ih (op_uniq o h)

theorem fireLoop_uniq {T : Nat} (h : Nat → List Op) (n : Nat) : ∀ {s : W}, Uniq s →
    Uniq (fireLoop T h n s) := by
  induction n with
  | zero => exact fun hs => hs
  | succ n ih =>
    intro s hs
    unfold fireLoop
    split
    · exact hs
    · rename_i d i r hq
      split
      · exact hs
      · refine ih (ops_uniq _ ?_)
        unfold Uniq at hs
        rw [hq] at hs
        exact (List.pairwise_cons.1 hs).2

theorem step_uniq {T : Nat} {s : W} (e : Ev) (h : Uniq s) : Uniq (step T s e) := by
  cases e with
  | tick dt => exact h
  | request id => exact uniq_of (setWakeup_q _) (op_uniq (T := T) (.record id) h)
  | poke => exact uniq_of (setWakeup_q _) h
  | message os => exact ops_uniq os h
  | wake f =>
    show Uniq (match s.armed with
      | none => s
      | some t => if t ≤ s.now then fire T f s else s)
    split
    · exact h
    · split
      · exact uniq_of (setWakeup_q _) (fireLoop_uniq f _ (uniq_of (s := s) rfl h))
      · exact h

end Verif.HermesWake

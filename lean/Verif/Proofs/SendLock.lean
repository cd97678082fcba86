import Verif.Model.SendLock
namespace Verif.SendLock
open Verif.Wire

/-- Invariant when all senders use one mutex `L`. `done` lists (sender, message) in
the order the mutex was taken, finished messages only. -/
structure Inv (msgs : Nat → List Writes) (L : Nat) (s : St) (done : List (Nat × Writes)) : Prop where
  lock : ∀ i, (s.senders i).lock = L
  holder : ∀ i, (s.senders i).cur.isSome ↔ s.held L = some i
  order : ∀ i, (s.senders i).cur = none →
    (done.filter (fun p => p.1 = i)).map Prod.snd ++ (s.senders i).todo = msgs i
  idle : s.held L = none → s.wire = (done.map (fun p => p.2.flatten)).flatten
  busy : ∀ i, s.held L = some i → ∃ m pre ws, (s.senders i).cur = some ws ∧ m = pre ++ ws ∧
    (done.filter (fun p => p.1 = i)).map Prod.snd ++ m :: (s.senders i).todo = msgs i ∧
    s.wire = (done.map (fun p => p.2.flatten)).flatten ++ pre.flatten

theorem inv_start (lockOf : Nat → Nat) (msgs : Nat → List Writes) (L : Nat)
    (h : ∀ i, lockOf i = L) : Inv msgs L (start lockOf msgs) [] := by
  constructor <;> simp [start, h]

theorem inv_step (msgs : Nat → List Writes) (L : Nat) (s : St) (done : List (Nat × Writes))
    (h : Inv msgs L s done) (i : Nat) : ∃ done', Inv msgs L (step s i) done' := by
  unfold step
  have hlock := h.lock i
  simp only
  cases hc : (s.senders i).cur with
  | none =>
    simp only
    cases ht : (s.senders i).todo with
    | nil => exact ⟨done, h⟩
    | cons m ms =>
      simp only
      split
      · next hfree =>
        rw [hlock] at hfree
        refine ⟨done, ?_, ?_, ?_, ?_, ?_⟩
        · intro j; simp only; split
          · exact hlock
          · exact h.lock j
        · intro j; simp only [hlock, if_true]
          by_cases hj : j = i
          · simp [hj]
          · simp only [hj, if_false, Option.some.injEq]
            have := h.holder j
            rw [hfree] at this
            simp at this
            simp [this]; exact fun hh => hj hh.symm
        · intro j hj; simp only at hj ⊢
          by_cases hji : j = i
          · simp [hji] at hj
          · simp only [hji, if_false] at hj ⊢; exact h.order j hj
        · simp [hlock]
        · intro j hj
          simp only [hlock, if_true, Option.some.injEq] at hj
          subst hj
          refine ⟨m, [], m, by simp, by simp, ?_, ?_⟩
          · simp only [if_true]
            have := h.order i hc
            rw [ht] at this; exact this
          · simpa using h.idle hfree
      · exact ⟨done, h⟩
  | some ws =>
    have hheld : s.held L = some i := (h.holder i).1 (by simp [hc])
    obtain ⟨m, pre, ws', h1, h2, h3, h4⟩ := h.busy i hheld
    rw [hc] at h1
    simp only [Option.some.injEq] at h1
    subst h1
    cases ws with
    | nil =>
      simp only
      simp only [List.append_nil] at h2
      subst h2
      refine ⟨done ++ [(i, m)], ?_, ?_, ?_, ?_, ?_⟩
      · intro j; simp only; split
        · exact hlock
        · exact h.lock j
      · intro j; simp only [hlock, if_true]
        by_cases hj : j = i
        · simp [hj]
        · simp only [hj, if_false]
          have := h.holder j
          rw [hheld] at this
          simp only [Option.some.injEq] at this
          constructor
          · intro hh; exact absurd (this.1 hh).symm hj
          · simp
      · intro j hj; simp only at hj ⊢
        by_cases hji : j = i
        · subst hji
          simp only [if_true, List.filter_append, List.map_append]
          simp only [decide_true, List.filter_cons_of_pos, List.filter_nil, List.map_cons,
            List.map_nil, List.append_assoc, List.singleton_append]
          exact h3
        · simp only [hji, if_false] at hj ⊢
          rw [List.filter_append]
          have : List.filter (fun p : Nat × Writes => decide (p.1 = j)) [(i, m)] = [] := by
            simp; exact fun hh => hji hh.symm
          rw [this, List.append_nil]
          exact h.order j hj
      · intro _
        simp only [h4, List.map_append, List.flatten_append, List.map_cons, List.map_nil,
          List.flatten_cons, List.flatten_nil, List.append_nil]
      · intro j hj; simp [hlock] at hj
    | cons w ws =>
      simp only
      refine ⟨done, ?_, ?_, ?_, ?_, ?_⟩
      · intro j; simp only; split
        · exact hlock
        · exact h.lock j
      · intro j; simp only
        by_cases hj : j = i
        · simp [hj, hheld]
        · simp only [hj, if_false]; exact h.holder j
      · intro j hj; simp only at hj ⊢
        by_cases hji : j = i
        · simp [hji] at hj
        · simp only [hji, if_false] at hj ⊢; exact h.order j hj
      · intro hh; simp only at hh; rw [hheld] at hh; simp at hh
      · intro j hj
        simp only at hj
        rw [hheld] at hj
        simp only [Option.some.injEq] at hj
        subst hj
        refine ⟨m, pre ++ [w], ws, by simp, by simp [h2], ?_, ?_⟩
        · simpa using h3
        · simp [h4]

theorem inv_run (msgs : Nat → List Writes) (L : Nat) (sched : List Nat) :
    ∀ (s : St) (done : List (Nat × Writes)), Inv msgs L s done →
    ∃ done', Inv msgs L (run s sched) done' := by
  induction sched with
  | nil => intro s done h; exact ⟨done, h⟩
  | cons i is ih =>
    intro s done h
    obtain ⟨d1, h1⟩ := inv_step msgs L s done h i
    exact ih _ d1 h1

/-- Invariant when every message is a single buffer, whatever the mutexes:
`done` lists the messages in the order their buffer was written. -/
structure Inv1 (msgs : Nat → List Writes) (s : St) (done : List (Nat × Bytes)) : Prop where
  wire : s.wire = (done.map Prod.snd).flatten
  order : ∀ i, (done.filter (fun p => p.1 = i)).map (fun p => [p.2]) ++
      (match (s.senders i).cur with
        | some (w :: _) => [[w]]
        | _ => []) ++ (s.senders i).todo = msgs i
  curOne : ∀ i w ws, (s.senders i).cur = some (w :: ws) → ws = []

theorem inv1_start (lockOf : Nat → Nat) (msgs : Nat → List Writes) :
    Inv1 msgs (start lockOf msgs) [] := by
  constructor <;> simp [start]

theorem inv1_step (msgs : Nat → List Writes) (hone : ∀ i, ∀ m ∈ msgs i, ∃ w, m = [w])
    (s : St) (done : List (Nat × Bytes))
    (h : Inv1 msgs s done) (i : Nat) : ∃ done', Inv1 msgs (step s i) done' := by
  unfold step
  simp only
  cases hc : (s.senders i).cur with
  | none =>
    simp only
    cases ht : (s.senders i).todo with
    | nil => exact ⟨done, h⟩
    | cons m ms =>
      simp only
      split
      · have hm : ∃ w, m = [w] := by
          apply hone i
          rw [← h.order i, ht]
          simp
        obtain ⟨w, rfl⟩ := hm
        refine ⟨done, h.wire, ?_, ?_⟩
        · intro j
          simp only
          by_cases hj : j = i
          · subst hj
            have := h.order j
            simp only [hc, ht] at this
            simpa using this
          · simp only [hj, if_false]; exact h.order j
        · intro j w' ws'
          simp only
          by_cases hj : j = i
          · simp only [hj, if_true, Option.some.injEq, List.cons.injEq]
            rintro ⟨_, rfl⟩; rfl
          · simp only [hj, if_false]; exact h.curOne j w' ws'
      · exact ⟨done, h⟩
  | some ws =>
    cases ws with
    | nil =>
      simp only
      refine ⟨done, h.wire, ?_, ?_⟩
      · intro j
        simp only
        by_cases hj : j = i
        · subst hj
          have := h.order j
          simp only [hc] at this
          simpa using this
        · simp only [hj, if_false]; exact h.order j
      · intro j w' ws'
        simp only
        by_cases hj : j = i
        · simp [hj]
        · simp only [hj, if_false]; exact h.curOne j w' ws'
    | cons w ws =>
      have hws := h.curOne i w ws hc
      subst hws
      simp only
      refine ⟨done ++ [(i, w)], by simp [h.wire], ?_, ?_⟩
      · intro j
        simp only
        by_cases hj : j = i
        · subst hj
          have := h.order j
          simp only [hc] at this
          simp only [if_true, List.filter_append, List.map_append]
          simpa using this
        · simp only [hj, if_false]
          rw [List.filter_append]
          have : List.filter (fun p : Nat × Bytes => decide (p.1 = j)) [(i, w)] = [] := by
            simp; exact fun hh => hj hh.symm
          rw [this, List.append_nil]
          exact h.order j
      · intro j w' ws'
        simp only
        by_cases hj : j = i
        · simp [hj]
        · simp only [hj, if_false]; exact h.curOne j w' ws'

theorem inv1_run (msgs : Nat → List Writes) (hone : ∀ i, ∀ m ∈ msgs i, ∃ w, m = [w])
    (sched : List Nat) :
    ∀ (s : St) (done : List (Nat × Bytes)), Inv1 msgs s done →
    ∃ done', Inv1 msgs (run s sched) done' := by
  induction sched with
  | nil => intro s done h; exact ⟨done, h⟩
  | cons i is ih =>
    intro s done h
    obtain ⟨d1, h1⟩ := inv1_step msgs hone s done h i
    exact ih _ d1 h1

end Verif.SendLock

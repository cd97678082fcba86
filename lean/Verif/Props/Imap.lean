import Verif.Spec.Imap
/-
C39: the index of pending tickets.
-/
namespace Verif.Imap
open Spec

theorem mem_sset (x v : String) (l : List String) : x ∈ sset v l ↔ x = v ∨ x ∈ l := by
  unfold sset; split
  · constructor
    · exact Or.inr
    · rintro (rfl | h) <;> assumption
  · simp

theorem mem_sdel (x v : String) (l : List String) : x ∈ sdel v l ↔ x ≠ v ∧ x ∈ l := by
  unfold sdel; simp [and_comm]

theorem mem_odel (e : Nat × String) (k : Nat) (l : List (Nat × String)) :
    e ∈ odel k l ↔ e.1 ≠ k ∧ e ∈ l := by
  unfold odel; simp [and_comm]

def Sorted (l : List (Nat × String)) : Prop := l.Pairwise fun a b => a.1 < b.1

theorem mem_oset (e : Nat × String) (k : Nat) (v : String) (l : List (Nat × String)) (hs : Sorted l) :
    e ∈ oset k v l ↔ e = (k, v) ∨ (e.1 ≠ k ∧ e ∈ l) := by
  induction l with
  | nil => simp [oset]
  | cons x r ih =>
    obtain ⟨k', v'⟩ := x
    unfold Sorted at hs
    rw [List.pairwise_cons] at hs
    have ih := ih hs.2
    simp only [oset]
    split
    · next h =>
      simp only [List.mem_cons]
      constructor
      · rintro (h1 | h1 | h1)
        · exact Or.inl h1
        · refine Or.inr ⟨?_, Or.inl h1⟩; rw [h1]; simp; omega
        · refine Or.inr ⟨?_, Or.inr h1⟩; have := hs.1 e h1; simp at this; omega
      · rintro (h1 | ⟨_, h1⟩)
        · exact Or.inl h1
        · exact Or.inr h1
    · split
      · next h1 h2 =>
        subst h2
        simp only [List.mem_cons]
        constructor
        · rintro (h | h)
          · exact Or.inl h
          · refine Or.inr ⟨?_, Or.inr h⟩; have := hs.1 e h; simp at this; omega
        · rintro (h | ⟨h, rfl | h3⟩)
          · exact Or.inl h
          · simp at h
          · exact Or.inr h3
      · next h1 h2 =>
        simp only [List.mem_cons, ih]
        constructor
        · rintro (rfl | h | h)
          · exact Or.inr ⟨by simp; omega, Or.inl rfl⟩
          · exact Or.inl h
          · exact Or.inr ⟨h.1, Or.inr h.2⟩
        · rintro (h | ⟨h, h3 | h3⟩)
          · exact Or.inr (Or.inl h)
          · exact Or.inl h3
          · exact Or.inr (Or.inr ⟨h, h3⟩)

theorem sorted_oset (k : Nat) (v : String) (l : List (Nat × String)) (hs : Sorted l) : Sorted (oset k v l) := by
  induction l with
  | nil => simp [oset, Sorted]
  | cons x r ih =>
    obtain ⟨k', v'⟩ := x
    have hs' := hs
    unfold Sorted at hs ⊢
    rw [List.pairwise_cons] at hs
    have ih := ih hs.2
    simp only [oset]
    split
    · next h =>
      rw [List.pairwise_cons, List.pairwise_cons]
      refine ⟨?_, hs⟩
      intro a ha
      simp only [List.mem_cons] at ha
      rcases ha with rfl | ha
      · exact h
      · have := hs.1 a ha; simp at this ⊢; omega
    · split
      · next h1 h2 =>
        rw [List.pairwise_cons]
        refine ⟨?_, hs.2⟩
        intro a ha; have := hs.1 a ha; simp at this ⊢; omega
      · next h1 h2 =>
        rw [List.pairwise_cons]
        refine ⟨?_, ih⟩
        intro a ha
        rw [mem_oset a k v r hs.2] at ha
        rcases ha with rfl | ha
        · simp; omega
        · exact hs.1 a ha.2

/-- Consistency of the map with the world, for allowed histories. -/
structure Inv (w : World) (s : Imap) : Prop where
  idx : s.idx = w.idx
  m : ∀ i, i ∈ s.m ↔ w.pending i
  awaitSub : ∀ i, i ∈ s.await → w.pending i
  sorted : Sorted s.ordered
  orderedSub : ∀ k i, (k, i) ∈ s.ordered → w.pending i ∧ w.idx i = k ∧ 0 < k
  covered : ∀ i, w.pending i → i ∈ s.await ∨ (w.idx i, i) ∈ s.ordered
  distinct : ∀ i j, w.pending i → w.pending j → 0 < w.idx i → w.idx i = w.idx j → i = j

theorem repairOne_inv (w : World) (s : Imap) (id : String) (h : Inv w s) :
    Inv w (repairOne s id) ∧ (∀ i, i ≠ id → (i ∈ (repairOne s id).await ↔ i ∈ s.await)) ∧
      (id ∈ (repairOne s id).await → w.idx id = 0) := by
  unfold repairOne
  have hidx : s.idx id = w.idx id := by rw [h.idx]
  by_cases hm : id ∈ s.m
  · rw [if_pos hm]
    have hp := (h.m id).1 hm
    by_cases hk : s.idx id > 0
    · rw [if_pos hk]
      refine ⟨⟨h.idx, h.m, ?_, sorted_oset _ _ _ h.sorted, ?_, ?_, h.distinct⟩, ?_, ?_⟩
      · intro i hi; exact h.awaitSub i ((mem_sdel _ _ _).1 hi).2
      · intro k i hki
        rw [mem_oset _ _ _ _ h.sorted] at hki
        rcases hki with hki | hki
        · injection hki with h1 h2
          subst h1; subst h2
          exact ⟨hp, hidx.symm, hk⟩
        · exact h.orderedSub k i hki.2
      · intro i hi
        by_cases he : i = id
        · subst he
          right; rw [mem_oset _ _ _ _ h.sorted]; left; rw [hidx]
        · rcases h.covered i hi with hc | hc
          · left; exact (mem_sdel _ _ _).2 ⟨he, hc⟩
          · right; rw [mem_oset _ _ _ _ h.sorted]; right
            refine ⟨?_, hc⟩
            intro heq
            simp only [hidx] at heq
            have := (h.orderedSub _ _ hc).2.2
            exact he (h.distinct i id hi hp this heq)
      · intro i hi; simp [mem_sdel, hi]
      · intro hh; simp [mem_sdel] at hh
    · rw [if_neg hk]
      exact ⟨h, fun i _ => Iff.rfl, fun _ => by omega⟩
  · rw [if_neg hm]
    refine ⟨⟨h.idx, h.m, ?_, h.sorted, h.orderedSub, ?_, h.distinct⟩, ?_, ?_⟩
    · intro i hi; exact h.awaitSub i ((mem_sdel _ _ _).1 hi).2
    · intro i hi
      rcases h.covered i hi with hc | hc
      · left; refine (mem_sdel _ _ _).2 ⟨?_, hc⟩
        rintro rfl; exact hm ((h.m i).2 hi)
      · exact Or.inr hc
    · intro i hi; simp [mem_sdel, hi]
    · intro hh; simp [mem_sdel] at hh

theorem repairFold_inv (w : World) (l : List String) : ∀ s : Imap, Inv w s →
    (∀ i ∈ s.await, i ∈ l ∨ w.idx i = 0) →
    Inv w (l.foldl repairOne s) ∧ ∀ i ∈ (l.foldl repairOne s).await, w.idx i = 0 := by
  induction l with
  | nil => intro s h h2; exact ⟨h, fun i hi => by simpa using h2 i hi⟩
  | cons id l ih =>
    intro s h h2
    obtain ⟨h3, h4, h5⟩ := repairOne_inv w s id h
    rw [List.foldl_cons]
    apply ih _ h3
    intro i hi
    by_cases he : i = id
    · subst he; exact Or.inr (h5 hi)
    · rcases h2 i ((h4 i he).1 hi) with h6 | h6
      · simp only [List.mem_cons, he, false_or] at h6; exact Or.inl h6
      · exact Or.inr h6

theorem repair_inv (w : World) (s : Imap) (h : Inv w s) :
    Inv w (repair s) ∧ ∀ i ∈ (repair s).await, w.idx i = 0 :=
  repairFold_inv w s.await s h (fun _ hi => Or.inl hi)

theorem step_inv (w : World) (s : Imap) (o : Op) (h : Inv w s) (ha : w.allowed o) :
    Inv (w.step o) (step s o) := by
  cases o with
  | iterate => exact (repair_inv w s h).1
  | set id =>
    have hidx : s.idx id = w.idx id := by rw [h.idx]
    have hdist : ∀ i j, (i = id ∨ w.pending i) → (j = id ∨ w.pending j) → 0 < w.idx i → w.idx i = w.idx j → i = j := by
      intro i j hi hj hpos he
      rcases hi with rfl | hi
      · rcases hj with rfl | hj
        · rfl
        · exact (ha hpos j hj he.symm).symm
      · rcases hj with rfl | hj
        · exact ha (by omega) i hi he
        · exact h.distinct i j hi hj hpos he
    unfold step set
    by_cases hk : s.idx id > 0
    · simp only [hk, if_true]
      refine ⟨h.idx, ?_, fun i hi => Or.inr (h.awaitSub i hi), sorted_oset _ _ _ h.sorted, ?_, ?_, hdist⟩
      · intro i; simp only [mem_sset, h.m, World.step]
      · intro k i hki
        rw [mem_oset _ _ _ _ h.sorted] at hki
        rcases hki with hki | hki
        · injection hki with h1 h2
          subst h1; subst h2
          exact ⟨Or.inl rfl, hidx.symm, hk⟩
        · have := h.orderedSub k i hki.2
          exact ⟨Or.inr this.1, this.2⟩
      · intro i hi
        simp only [World.step] at hi ⊢
        by_cases he : i = id
        · subst he; right; rw [mem_oset _ _ _ _ h.sorted]; left; rw [hidx]
        · rcases hi with hi | hi
          · exact absurd hi he
          rcases h.covered i hi with hc | hc
          · exact Or.inl hc
          · right; rw [mem_oset _ _ _ _ h.sorted]; right
            refine ⟨?_, hc⟩
            intro heq
            simp only [hidx] at heq
            have := (h.orderedSub _ _ hc).2.2
            exact he (hdist i id (Or.inr hi) (Or.inl rfl) this heq)
    · simp only [hk, if_false]
      refine ⟨h.idx, ?_, ?_, h.sorted, ?_, ?_, hdist⟩
      · intro i; simp only [mem_sset, h.m, World.step]
      · intro i hi
        rw [mem_sset] at hi
        rcases hi with hi | hi
        · exact Or.inl hi
        · exact Or.inr (h.awaitSub i hi)
      · intro k i hki
        have := h.orderedSub k i hki
        exact ⟨Or.inr this.1, this.2⟩
      · intro i hi
        simp only [World.step] at hi ⊢
        rw [mem_sset]
        rcases hi with hi | hi
        · exact Or.inl (Or.inl hi)
        · rcases h.covered i hi with hc | hc
          · exact Or.inl (Or.inr hc)
          · exact Or.inr hc
  | del id =>
    have hidx : s.idx id = w.idx id := by rw [h.idx]
    unfold step del
    simp only
    by_cases hm : id ∈ s.m
    · rw [if_pos hm]
      have hp := (h.m id).1 hm
      refine ⟨h.idx, ?_, ?_, ?_, ?_, ?_, ?_⟩
      · intro i; simp only [mem_sdel, h.m, World.step]
      · intro i hi
        have := (mem_sdel _ _ _).1 hi
        exact ⟨this.1, h.awaitSub i this.2⟩
      · exact List.Pairwise.filter _ h.sorted
      · intro k i hki
        rw [mem_odel] at hki
        have := h.orderedSub k i hki.2
        refine ⟨⟨?_, this.1⟩, this.2⟩
        rintro rfl
        apply hki.1
        rw [hidx]; exact this.2.1.symm
      · intro i hi
        rcases h.covered i hi.2 with hc | hc
        · left; exact (mem_sdel _ _ _).2 ⟨hi.1, hc⟩
        · right; rw [mem_odel]
          refine ⟨?_, hc⟩
          intro heq
          simp only [hidx] at heq
          have := (h.orderedSub _ _ hc).2.2
          exact hi.1 (h.distinct i id hi.2 hp this heq)
      · intro i j hi hj; exact h.distinct i j hi.2 hj.2
    · rw [if_neg hm]
      have hnp : ∀ i, w.pending i → i ≠ id := by
        rintro i hi rfl; exact hm ((h.m i).2 hi)
      have heq : w.step (.del id) = w := by
        simp only [World.step]
        have : (fun i => i ≠ id ∧ w.pending i) = w.pending := by
          funext i; apply propext; exact ⟨fun h => h.2, fun h => ⟨hnp i h, h⟩⟩
        rw [this]
      rw [heq]; exact h
  | assign id k =>
    unfold step
    simp only
    have hi : ∀ i, i ≠ id → (w.step (.assign id k)).idx i = w.idx i := by
      intro i hi; simp [World.step, hi]
    have hid : (w.step (.assign id k)).idx id = k := by simp [World.step]
    have hold : ∀ i, w.pending i → 0 < w.idx i → (w.step (.assign id k)).idx i = w.idx i := by
      intro i hp hpos
      by_cases he : i = id
      · subst he
        have := (ha hp).1
        rw [hid]; omega
      · exact hi i he
    refine ⟨?_, h.m, h.awaitSub, h.sorted, ?_, ?_, ?_⟩
    · rw [h.idx]; rfl
    · intro k' i hki
      have := h.orderedSub k' i hki
      exact ⟨this.1, by rw [hold i this.1 (by omega)]; exact this.2.1, this.2.2⟩
    · intro i hp
      rcases h.covered i hp with hc | hc
      · exact Or.inl hc
      · right; rw [hold i hp (by have := (h.orderedSub _ _ hc).2.2; omega)]; exact hc
    · intro i j hpi hpj hpos he
      by_cases e1 : i = id
      · subst e1
        by_cases e2 : j = i
        · exact e2.symm
        · rw [hid] at hpos he
          rw [hi j e2] at he
          exact ((ha hpi).2 hpos j hpj he.symm).symm
      · by_cases e2 : j = id
        · subst e2
          rw [hid, hi i e1] at he
          rw [hi i e1] at hpos
          exact (ha hpj).2 (by omega) i hpi he
        · rw [hi i e1, hi j e2] at he
          rw [hi i e1] at hpos
          exact h.distinct i j hpi hpj hpos he

theorem run_inv (ops : List Op) : ∀ (w : World) (s : Imap), Inv w s → w.allowedAll ops →
    Inv (ops.foldl World.step w) (ops.foldl step s) := by
  induction ops with
  | nil => intro w s h _; exact h
  | cons o os ih => intro w s h ha; exact ih _ _ (step_inv w s o h ha.1) ha.2

theorem inv_new (idx : String → Nat) : Inv (start idx) (new idx) :=
  ⟨rfl, by simp [new, start], by simp [new], by simp [new, Sorted], by simp [new],
   by simp [start], by simp [start]⟩

theorem repairOne_m (s : Imap) (id : String) : (repairOne s id).m = s.m := by
  unfold repairOne; split
  · split <;> rfl
  · rfl

theorem repair_m (s : Imap) : (repair s).m = s.m := by
  unfold repair
  generalize s.await = l
  induction l generalizing s with
  | nil => rfl
  | cons x l ih => rw [List.foldl_cons, ih, repairOne_m]

/-- C39, lookup: for every history whatsoever, a ticket is found by id exactly when it
was added and not since deleted. -/
theorem C39_lookup_exact (idx : String → Nat) (ops : List Op) (id : String) :
    get2 (ops.foldl step (new idx)) id = true ↔ (ops.foldl World.step (start idx)).pending id := by
  have key : ∀ (ops : List Op) (w : World) (s : Imap), (∀ i, i ∈ s.m ↔ w.pending i) →
      ∀ i, i ∈ (ops.foldl step s).m ↔ (ops.foldl World.step w).pending i := by
    intro ops
    induction ops with
    | nil => intro w s h; exact h
    | cons o os ih =>
      intro w s h
      rw [List.foldl_cons, List.foldl_cons]
      apply ih
      intro i
      cases o with
      | set id =>
        simp only [step, set, World.step]
        split <;> simp [mem_sset, h]
      | del id =>
        simp only [step, del, World.step]
        split
        · simp [mem_sdel, h]
        · next hm =>
          constructor
          · intro hi; exact ⟨fun e => hm (e ▸ hi), (h i).1 hi⟩
          · intro hi; exact (h i).2 hi.2
      | assign id k => exact h i
      | iterate => simp only [step, repair_m, World.step]; exact h i
  unfold get2
  simp only [decide_eq_true_eq]
  exact key ops (start idx) (new idx) (by simp [new, start]) id

/-- C39, iteration (part): if a pending ticket's log index is not changed once positive and
no two pending tickets share one, iteration yields, in strictly increasing log-index
order, exactly the pending tickets that have a log index, each under that index.
Missing: histories that reassign a positive index (see the counterexample). -/
theorem C39_iteration_in_order_partial (idx : String → Nat) (ops : List Op)
    (h : (start idx).allowedAll ops) :
    let w := ops.foldl World.step (start idx)
    let out := (all (ops.foldl step (new idx))).1
    out.Pairwise (fun a b => a.1 < b.1) ∧ (out.map (·.2)).Nodup ∧
    ∀ k id, (k, id) ∈ out ↔ w.pending id ∧ w.idx id = k ∧ 0 < k := by
  intro w out
  have hi := run_inv ops _ _ (inv_new idx) h
  obtain ⟨h1, h2⟩ := repair_inv _ _ hi
  have hmem : ∀ k id, (k, id) ∈ out ↔ w.pending id ∧ w.idx id = k ∧ 0 < k := by
    intro k id
    constructor
    · exact h1.orderedSub k id
    · rintro ⟨hp, rfl, hpos⟩
      rcases h1.covered id hp with hc | hc
      · exact absurd (h2 id hc) (Nat.ne_of_gt hpos)
      · exact hc
  refine ⟨h1.sorted, ?_, hmem⟩
  unfold List.Nodup
  rw [List.pairwise_map]
  apply List.Pairwise.imp_of_mem _ h1.sorted
  intro a b ha hb hlt he
  have e1 := (hmem a.1 a.2).1 ha
  have e2 := (hmem b.1 b.2).1 hb
  rw [← he] at e2
  omega

/-- A ticket added before it has an index, and one added with an index. -/
example : (start fun _ => 0).allowedAll
    [.set "t1", .assign "t2" 4, .set "t2", .assign "t1" 7, .iterate, .del "t2"] ∧
    (all ([Op.set "t1", .assign "t2" 4, .set "t2", .assign "t1" 7].foldl step (new fun _ => 0))).1 =
      [(4, "t2"), (7, "t1")] := by
  refine ⟨?_, by decide⟩
  simp [World.allowedAll, World.allowed, World.step, start]

/-- C39 fails when a positive log index is changed while the ticket is pending: after
deletion the ticket is still yielded. -/
theorem C39_reassigned_index_leaves_ghost_counterexample :
    ∃ ops : List Op, get2 (ops.foldl step (new fun _ => 0)) "t" = false ∧
      (all (ops.foldl step (new fun _ => 0))).1 = [(5, "t")] :=
  ⟨[.assign "t" 5, .set "t", .assign "t" 7, .del "t"], by decide, by decide⟩

end Verif.Imap

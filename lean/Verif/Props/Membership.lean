import Verif.Spec.Membership
/-
C27, C28: quorum overlap check and configuration versions.
-/
namespace Verif.Membership
open Spec

theorem card_members (mc : MC) (h : mc.names.Nodup) : (members mc).card = mc.names.length :=
  List.toFinset_card_of_nodup h

theorem intersection_card (a b : MC) (ha : a.names.Nodup) (hb : b.names.Nodup) :
    (intersection a b).length = (members a ∩ members b).card := by
  unfold intersection
  split
  · rw [← List.toFinset_card_of_nodup (ha.filter _)]
    congr 1
    ext x; simp [members]
  · rw [← List.toFinset_card_of_nodup (hb.filter _)]
    congr 1
    ext x; simp [members, and_comm]

/-- C27: the check accepts two memberships exactly when every majority of the one
shares a member with every majority of the other. (An empty membership has no
majority, and is accepted.) -/
theorem C27_overlap_check_is_exact (a b : MC) (ha : a.names.Nodup) (hb : b.names.Nodup) :
    quorumsOverlap a b = true ↔
      ∀ q₀ q₁ : Finset String, IsMajority (members a) q₀ → IsMajority (members b) q₁ →
        (q₀ ∩ q₁).Nonempty := by
  have ca := card_members a ha
  have cb := card_members b hb
  have ci := intersection_card a b ha hb
  unfold quorumsOverlap majority
  simp only
  rw [ci, ← ca, ← cb]
  generalize members a = A at *
  generalize members b = B at *
  have hU := Finset.card_union_add_card_inter A B
  by_cases hA : A.card = 0
  · simp only [hA]
    simp
    intro q₀ q₁ h0
    have := h0.2
    have h3 := Finset.card_le_card h0.1
    omega
  by_cases hB : B.card = 0
  · simp only [hB]
    simp
    intro q₀ q₁ h0 h1
    have := h1.2
    have h3 := Finset.card_le_card h1.1
    omega
  simp only [hA, hB, if_false]
  rw [if_neg (by omega)]
  simp only [decide_eq_true_eq]
  constructor
  · intro h q₀ q₁ h0 h1
    by_contra hne
    rw [Finset.not_nonempty_iff_eq_empty] at hne
    have h2 := Finset.card_union_add_card_inter q₀ q₁
    rw [hne, Finset.card_empty] at h2
    have h3 : (q₀ ∪ q₁).card ≤ (A ∪ B).card := Finset.card_le_card (Finset.union_subset_union h0.1 h1.1)
    have := h0.2; have := h1.2
    omega
  · intro h
    by_contra hlt
    have hI := Finset.card_sdiff_add_card_inter A B
    have hJ := Finset.card_sdiff_add_card_inter B A
    rw [Finset.inter_comm B A] at hJ
    -- choose q₀ with as few common members as possible
    obtain ⟨q₀, hq0, hc0, hx0⟩ : ∃ q₀, q₀ ⊆ A ∧ q₀.card = A.card / 2 + 1 ∧
        (q₀ ∩ (A ∩ B)).card ≤ A.card / 2 + 1 - (A \ B).card := by
      by_cases hle : A.card / 2 + 1 ≤ (A \ B).card
      · obtain ⟨q, hq, hqc⟩ := Finset.exists_subset_card_eq hle
        refine ⟨q, hq.trans Finset.sdiff_subset, hqc, ?_⟩
        have : q ∩ (A ∩ B) = ∅ := by
          ext x; simp; intro hx; have := hq hx; simp at this; intro _; exact this.2
        rw [this]; simp
      · obtain ⟨q, hq1, hq2, hqc⟩ := Finset.exists_subsuperset_card_eq
          (Finset.sdiff_subset : A \ B ⊆ A) (n := A.card / 2 + 1) (by omega) (by omega)
        refine ⟨q, hq2, hqc, ?_⟩
        have h5 : Disjoint (A \ B) (q ∩ (A ∩ B)) := by
          rw [Finset.disjoint_left]; intro x hx; simp at hx ⊢; intro _ _; exact hx.2
        have h6 := Finset.card_union_of_disjoint h5
        have h7 : ((A \ B) ∪ (q ∩ (A ∩ B))).card ≤ q.card :=
          Finset.card_le_card (Finset.union_subset hq1 Finset.inter_subset_left)
        omega
    -- q₁ avoids q₀
    have hroom : B.card / 2 + 1 ≤ (B \ q₀).card := by
      have h1 := Finset.card_sdiff_add_card_inter B q₀
      have h2 : B ∩ q₀ = q₀ ∩ (A ∩ B) := by
        ext x; simp; constructor
        · intro ⟨h1, h2⟩; exact ⟨h2, hq0 h2, h1⟩
        · intro ⟨h1, _, h3⟩; exact ⟨h3, h1⟩
      rw [h2] at h1
      have h3 : (q₀ ∩ (A ∩ B)).card ≤ (A ∩ B).card := Finset.card_le_card Finset.inter_subset_right
      omega
    obtain ⟨q₁, hq1, hc1⟩ := Finset.exists_subset_card_eq hroom
    obtain ⟨x, hx⟩ := h q₀ q₁ ⟨hq0, by omega⟩ ⟨hq1.trans Finset.sdiff_subset, by omega⟩
    simp at hx
    have := hq1 hx.2
    simp at this
    exact this.2 hx.1

/-- Adding one server to three is accepted, replacing two of three is not. -/
example : (["a", "b", "c"] : List String).Nodup ∧
    quorumsOverlap ⟨["a", "b", "c"], 1, 1⟩ ⟨["a", "b", "c", "d"], 2, 1⟩ = true ∧
    quorumsOverlap ⟨["a", "b", "c"], 1, 1⟩ ⟨["a", "d", "e"], 2, 1⟩ = false := by decide

/-- C28, first half: "newer" as decided by the code is the lexicographic order of
(term, version), a strict order in which any two configurations are either comparable
or have equal term and version; the other two comparisons agree with it. -/
theorem C28_version_order (i j k : MC) :
    (versionGT i j = true ↔ Newer i j) ∧
    (versionGTE i j = true ↔ Newer i j ∨ (i.term = j.term ∧ i.version = j.version)) ∧
    (versionEqual i j = true ↔ i.term = j.term ∧ i.version = j.version) ∧
    ¬ versionGT i i = true ∧
    (versionGT i j = true → versionGT j k = true → versionGT i k = true) ∧
    (versionGT i j = true ∨ versionGT j i = true ∨ versionEqual i j = true) := by
  unfold versionGT versionGTE versionEqual Newer
  refine ⟨?_, ?_, by simp, by simp, ?_, ?_⟩
  · split
    · simp_all
    · split <;> simp <;> omega
  · split
    · simp_all
    · split <;> simp <;> omega
  · intro h1 h2
    split at h1 <;> split at h2 <;> split <;> try rfl
    all_goals (simp at h1 h2 ⊢; omega)
  · by_cases h1 : i.term > j.term
    · simp [h1]
    · by_cases h2 : j.term > i.term
      · simp [h2]
      · have h3 : i.term = j.term := by omega
        simp [h3]; omega

/-- Applied one by one, starting from configuration `c`. -/
theorem deliver_newest (ds : List Delivery) : (∀ d ∈ ds, isSnapshot d = false) → ∀ c : MC,
    ∃ r, ds.foldl deliver (some c) = some r ∧ r ∈ c :: carried ds ∧
      ∀ m ∈ c :: carried ds, ¬ Newer m r := by
  induction ds with
  | nil =>
    intro _ c
    exact ⟨c, rfl, by simp, by simp [carried, Newer]⟩
  | cons d ds ih =>
    intro hs c
    have ih := ih (fun d hd => hs d (by simp [hd]))
    have hd := hs d (by simp)
    -- what one delivery of `m` does
    have one : ∀ m, deliver (some c) d = some (if Newer m c then m else c) → carried (d :: ds) = m :: carried ds →
        ∃ r, (d :: ds).foldl deliver (some c) = some r ∧ r ∈ c :: carried (d :: ds) ∧
        ∀ m ∈ c :: carried (d :: ds), ¬ Newer m r := by
      intro m h1 h2
      rw [List.foldl_cons, h1, h2]
      obtain ⟨r, h3, h4, h5⟩ := ih (if Newer m c then m else c)
      refine ⟨r, h3, ?_, ?_⟩
      · split at h4 <;> (simp at h4 ⊢; rcases h4 with h | h <;> simp [h])
      · intro x hx
        have hr := h5 (if Newer m c then m else c) (by simp)
        simp only [List.mem_cons] at hx
        rcases hx with rfl | rfl | hx
        · by_cases hn : Newer m x
          · rw [if_pos hn] at hr
            unfold Newer at hn hr ⊢; omega
          · rw [if_neg hn] at hr; exact hr
        · by_cases hn : Newer x c
          · rw [if_pos hn] at hr; exact hr
          · rw [if_neg hn] at hr
            unfold Newer at hn hr ⊢; omega
        · exact h5 x (by simp [hx])
    have hset : ∀ m, setMC (some c) m = some (if Newer m c then m else c) := by
      intro m
      have := (C28_version_order c m m).2.1
      unfold setMC
      simp only
      by_cases hv : versionGTE c m = true
      · rw [if_pos hv, if_neg]
        have := this.1 hv
        unfold Newer at this ⊢; omega
      · rw [if_neg hv, if_pos]
        have : ¬ _ := fun h => hv (this.2 h)
        unfold Newer at this ⊢; omega
    cases d with
    | direct m => exact one m (hset m) rfl
    | stepDown m =>
      cases m with
      | none =>
        rw [List.foldl_cons]
        exact ih c
      | some m =>
        refine one m ?_ rfl
        simp only [deliver, becomeFollowerMC]
        have := (C28_version_order m c c).1
        by_cases hv : versionGT m c = true
        · rw [if_pos hv, hset]
        · rw [if_neg hv, if_neg (fun h => hv (this.2 h))]
    | snapshot m => simp [isSnapshot] at hd

/-- C28 (part): starting from configuration `c`, after configurations arriving in any
order and with any repetitions by messages, log entries or step-downs, the node holds
one of those it has seen and none it has seen is newer. Missing: configurations
arriving inside a state snapshot (see the counterexample). -/
theorem C28_newest_configuration_wins_partial (ds : List Delivery) (c : MC)
    (h : ∀ d ∈ ds, isSnapshot d = false) :
    ∃ r, ds.foldl deliver (some c) = some r ∧ r ∈ c :: carried ds ∧
      ∀ m ∈ c :: carried ds, ¬ Newer m r :=
  deliver_newest ds h c

example : [Delivery.direct ⟨["a", "b"], 2, 1⟩, .stepDown (some ⟨["a"], 1, 2⟩), .direct ⟨["a", "b"], 2, 1⟩].foldl
    deliver (some ⟨["a", "b", "c"], 1, 1⟩) = some ⟨["a"], 1, 2⟩ := by decide

/-- C28 fails for snapshots: a snapshot carrying an older configuration replaces a
newer one. -/
theorem C28_snapshot_regresses_counterexample :
    ∃ (new old : MC), Newer new old ∧ deliver (some new) (.snapshot (some old)) = some old :=
  ⟨⟨["a", "b"], 2, 1⟩, ⟨["a"], 1, 1⟩, Or.inr (by decide), rfl⟩

end Verif.Membership

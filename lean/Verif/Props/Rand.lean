import Verif.Proofs.Rand
/- C123 and C125: random numbers, and waiting times drawn with them. -/
namespace Verif.Rand

/-! ## C123 -/

/-- C123. A number asked for from n is one of 0 to n-1, each equally likely: for all n but MaxInt64 itself. -/
theorem C123_range_partial (n : Int) (h : 1 < n) (h2 : n < maxInt) : Uniform (range n) fun r => 0 ≤ r ∧ r < n :=
  uniform_range h h2

/-- What it returns with one word, 2^63: the third of six. -/
example : range 6 [5, 9] = .ret 5 [9] ∧ range 6 [6] = .ret 0 [] ∧ range 6 [2 ^ 64 - 8] = .ret 2 [] ∧
    range 6 [2 ^ 63 - 1, 2 ^ 63 + 1, 3] = .ret 3 [] := by decide

/-- The same in package tube, which does not panic on nonsense. -/
theorem C123_range_tube_partial (n : Int) (h : 1 < n) (h2 : n < maxInt) : Uniform (rangeTube n) fun r => 0 ≤ r ∧ r < n :=
  uniform_congr (uniform_range h h2)
    (fun ws => by unfold rangeTube range; simp only [if_neg (show ¬ n ≤ 1 by omega)]) fun _ => Iff.rfl

/-- Few words are drawn again: their magnitude is within n of the largest. -/
theorem C123_redraws (n : Int) (h : 1 < n) (h2 : n < maxInt) (u : Word) (ws : List Word)
    (hu : ∀ r, range n (u :: ws) ≠ .ret r ws) : maxInt - n < nonNegOf u := by
  obtain ⟨q, _, _, q3, _⟩ := redrawAbove_spec h (by omega)
  unfold range at hu
  rw [if_neg (by omega), if_neg (by omega)] at hu
  simp only [loop, rangeTake_mag h (by omega)] at hu
  by_cases hv : redrawAbove n < nonNegOf u
  · omega
  · rw [if_neg hv] at hu
    exact absurd rfl (hu _)

example : range 6 [2 ^ 63 - 1, 3] = .ret 3 [] := by decide

/-- When MaxInt64 choices are asked for, MaxInt64 itself may be returned, which is not one of them. -/
theorem C123_max_counterexample : ∃ ws r rest, range maxInt ws = .ret r rest ∧ ¬ r < maxInt :=
  ⟨[2 ^ 63 - 1], maxInt, [], by decide, by decide⟩

/-- In package tube a range without members gives 0. -/
theorem C123_empty_range_counterexample (n : Int) (h : n ≤ 0) (ws : List Word) :
    rangeTube n ws = .ret 0 ws ∧ ¬ (0 ≤ (0 : Int) ∧ (0 : Int) < n) ∧ range n ws = .panic := by
  refine ⟨?_, by omega, ?_⟩
  · unfold rangeTube; rw [if_pos (by omega)]
  · unfold range; rw [if_pos (by omega)]

/-- C123. Of the numbers from -l to l each is equally likely, for every l. -/
theorem C123_pos_or_neg (l : Int) (h : 1 ≤ l) (h2 : l ≤ maxInt) : Uniform (posOrNeg l) fun r => -l ≤ r ∧ r ≤ l :=
  uniform_posOrNeg h h2

example : posOrNeg 2 [4] = .ret 2 [] ∧ posOrNeg (2 ^ 62) [2 ^ 63, 2 ^ 64 - 1] = .ret (-1) [] ∧
    posOrNeg maxInt [2 ^ 63, 7] = .ret 7 [] := by decide

theorem C123_non_negative : Uniform nonNeg fun r => 0 ≤ r ∧ r ≤ maxInt := uniform_nonNeg

theorem C123_positive : Uniform positive fun r => 1 ≤ r ∧ r ≤ maxInt := uniform_positive

theorem C123_int64 : Uniform int64 fun r => minInt ≤ r ∧ r ≤ maxInt :=
  uniform_signed (Int.le_refl _) (Int.le_refl _) fun u => by rw [if_pos (signed_range u)]

/-- As many bytes give true as false: adding one exchanges them. -/
theorem C123_bool (b : Fin 256) : boolOf (b + 1) = !boolOf b := by
  have h := b.isLt
  unfold boolOf
  rw [Fin.val_add]
  have : (1 : Fin 256).val = 1 := rfl
  rw [this]
  by_cases hb : b.val % 2 = 0
  · have h2 : (b.val + 1) % 256 % 2 ≠ 0 := by omega
    simp [hb]
    omega
  · have h2 : (b.val + 1) % 256 % 2 = 0 := by omega
    simp [hb, h2]

/-- The copies in jsync return a negative number where one >= 0, or > 0, is promised. -/
theorem C123_sync_counterexample :
    nonNegSync [2 ^ 63] = .ret minInt [] ∧ positiveSync [2 ^ 63] = .ret (minInt + 1) [] ∧ minInt + 1 < 0 := by decide

/-- They are right for every other word. -/
theorem C123_sync_partial (u : Word) (ws : List Word) (hu : signed u ≠ minInt) :
    nonNegSync (u :: ws) = nonNeg (u :: ws) := by
  simp only [nonNegSync, nonNeg, loop, nonNegOf, if_neg hu]

example : signed 5 ≠ minInt := by decide

/-! ## C125 -/

/-- C125. An election timeout is at least the minimum, and at most that much and once more for each member beyond two
(at least once more). -/
theorem C125_election_timeout_partial (rd : Rat → Rat) (hr : Rounding rd) (minDur n : Int) (ws rest : List Word) (d : Int)
    (hn : n ≤ 2 ^ 53) (hb : minElectionTimeout minDur * max 1 (n - 2) ≤ 2 ^ 53)
    (h : electionTimeout rd minDur n ws = .ret d rest) :
    minElectionTimeout minDur ≤ d ∧ d ≤ minElectionTimeout minDur + minElectionTimeout minDur * max 1 (n - 2) := by
  unfold electionTimeout at h
  have ht : (if 0 < minDur then minDur else 150000000) = minElectionTimeout minDur := rfl
  simp only [ht] at h
  have hpos : 0 < minElectionTimeout minDur := by unfold minElectionTimeout; split <;> omega
  have hle : minElectionTimeout minDur ≤ 2 ^ 53 := by
    have := Int.mul_le_mul_of_nonneg_left (show 1 ≤ max 1 (n - 2) by omega) (Int.le_of_lt hpos)
    omega
  generalize minElectionTimeout minDur = t at *
  split at h
  · exact nomatch h
  cases hk : range 100000000 ws with
  | panic => rw [hk] at h; exact nomatch h
  | more => rw [hk] at h; exact nomatch h
  | ret k rest' =>
    rw [hk] at h
    simp only [Out.map, Out.ret.injEq] at h
    have hu := (uniform_range (n := 100000000) (by omega) (by decide)).inside ws k ⟨rest', hk⟩
    have hs := spread_bounds hr (Int.le_of_lt hpos) hle hb hn hu.1 hu.2
    omega

/-- Exact arithmetic is a rounding. -/
theorem rounding_id : Rounding id := ⟨fun _ _ h => h, fun _ _ _ => rfl, fun _ _ _ => rfl⟩

example : electionTimeout id 20000000 3 [50000000] = .ret 30000000 [] := by decide +kernel

/-- In a cluster of up to three the bound is twice the minimum, as said. -/
theorem C125_small_cluster (rd : Rat → Rat) (hr : Rounding rd) (minDur n : Int) (ws rest : List Word) (d : Int)
    (hn : n ≤ 3) (hb : minElectionTimeout minDur ≤ 2 ^ 53) (h : electionTimeout rd minDur n ws = .ret d rest) :
    minElectionTimeout minDur ≤ d ∧ d ≤ maxElectionTimeout minDur := by
  have hm : max 1 (n - 2) = 1 := by omega
  have := C125_election_timeout_partial rd hr minDur n ws rest d (by omega) (by rw [hm]; omega) h
  rw [hm] at this
  unfold maxElectionTimeout
  omega

/-- In a cluster of five or more it is not: whatever the minimum, some draw gives more than twice it. -/
theorem C125_large_cluster_counterexample (rd : Rat → Rat) (hr : Rounding rd) (minDur n : Int) (hn : 5 ≤ n)
    (hn2 : n ≤ 2 ^ 53) (hb : minElectionTimeout minDur * max 1 (n - 2) ≤ 2 ^ 53) (hd : 10000000 ≤ minDur ∨ minDur ≤ 0) :
    ∃ ws d, electionTimeout rd minDur n ws = .ret d [] ∧ maxElectionTimeout minDur < d := by
  obtain ⟨u, hu⟩ := (uniform_range (n := 100000000) (by omega) (by decide)).every 50000000 (by omega)
  refine ⟨[u], minElectionTimeout minDur + minElectionTimeout minDur * max 1 (n - 2) / 2, ?_, ?_⟩
  · have hpos : 0 < minElectionTimeout minDur := by unfold minElectionTimeout; split <;> omega
    have hle : minElectionTimeout minDur ≤ 2 ^ 53 := by
      have := Int.mul_le_mul_of_nonneg_left (show 1 ≤ max 1 (n - 2) by omega) (Int.le_of_lt hpos)
      omega
    have ht : (if 0 < minDur then minDur else 150000000) = minElectionTimeout minDur := rfl
    unfold electionTimeout
    simp only [ht]
    rw [if_neg (by omega), hu]
    have := spread_half hr (Int.le_of_lt hpos) hle hb hn2
    simp only [Out.map]
    rw [this]
  · have hpos : 10000000 ≤ minElectionTimeout minDur := by unfold minElectionTimeout; split <;> omega
    have := Int.mul_le_mul_of_nonneg_left (show 3 ≤ max 1 (n - 2) by omega) (show 0 ≤ minElectionTimeout minDur by omega)
    unfold maxElectionTimeout
    omega

example : electionTimeout id 0 5 [50000000] = .ret 375000000 [] ∧ maxElectionTimeout 0 = 300000000 := by decide +kernel

/-- C125. The simulated delay is drawn evenly from minHop on, below maxHop. -/
theorem C125_hop_partial (a b : Int) (h : a + 1 < b) (h2 : b - a < maxInt) : Uniform (hop a b) fun r => a ≤ r ∧ r < b :=
  uniform_hop h h2

example : hop 100000 100006 [5] = .ret 100005 [] := by decide

/-- With no room between them it is minHop. -/
theorem C125_hop_fixed (a b : Int) (h : b ≤ a) (ws : List Word) : hop a b ws = .ret a ws := by
  unfold hop; rw [if_pos h]

/-- A room of one nanosecond stops the simulation. -/
theorem C125_hop_counterexample (a : Int) (ws : List Word) : hop a (a + 1) ws = .panic := by
  unfold hop range
  rw [if_neg (by omega), if_pos (by omega)]
  rfl

end Verif.Rand
